import Verif.Rt.Layout
import Verif.Rt.Spec
/-
Contents of the vtables that `end_table` writes, and what a reader finds through them.
-/
namespace Butte

/-- The two bytes at position `o`. -/
def two (bs : Bytes) (o : Nat) : Bytes := (bs.drop o).take 2

theorem two_length {bs : Bytes} {o : Nat} (h : o + 2 ≤ bs.length) : (two bs o).length = 2 := by
  simp [two]; omega

theorem split_at (bs : Bytes) (o n : Nat) :
    bs = bs.take o ++ ((bs.drop o).take n ++ bs.drop (o + n)) := by
  conv => lhs; rw [← List.take_append_drop o bs, ← List.take_append_drop n (bs.drop o)]
  rw [List.drop_drop]

theorem splice_eq (bs x : Bytes) (o : Nat) : splice bs o x = bs.take o ++ (x ++ bs.drop (o + x.length)) := by
  simp [splice]

theorem getElem?_splice (bs x : Bytes) (o i : Nat) (h : o + x.length ≤ bs.length) :
    (splice bs o x)[i]? = if o ≤ i ∧ i < o + x.length then x[i - o]? else bs[i]? := by
  rw [splice_eq]
  have ho : (bs.take o).length = o := by simp; omega
  by_cases h1 : i < o
  · rw [if_neg (by omega), List.getElem?_append_left (by omega), List.getElem?_take_of_lt h1]
  · rw [List.getElem?_append_right (by omega), ho]
    by_cases h2 : i < o + x.length
    · rw [if_pos (by omega), List.getElem?_append_left (by omega)]
    · rw [if_neg (by omega), List.getElem?_append_right (by omega), List.getElem?_drop]
      congr 1; omega

theorem two_ext {bs cs : Bytes} {o : Nat} (h0 : bs[o]? = cs[o]?) (h1 : bs[o + 1]? = cs[o + 1]?) :
    two bs o = two cs o := by
  unfold two
  apply List.ext_getElem?
  intro i
  rw [List.getElem?_take, List.getElem?_take]
  split
  · rw [List.getElem?_drop, List.getElem?_drop]
    rename_i hi
    rcases (by omega : i = 0 ∨ i = 1) with rfl | rfl
    · exact h0
    · exact h1
  · rfl

theorem two_splice_ne {bs x : Bytes} {o j : Nat} (hb : o + x.length ≤ bs.length)
    (h : o + x.length ≤ j ∨ j + 2 ≤ o) : two (splice bs o x) j = two bs j := by
  apply two_ext <;> rw [getElem?_splice _ _ _ _ hb, if_neg (by omega)]

theorem two_splice_same {bs x : Bytes} {o : Nat} (hx : x.length = 2) (hb : o + 2 ≤ bs.length) :
    two (splice bs o x) o = x := by
  unfold two
  rw [splice_eq, List.drop_left' (by simp; omega), List.take_left' hx]

theorem two_replicate {n o : Nat} (h : o + 2 ≤ n) : two (List.replicate n 0) o = leBytes 2 0 := by
  unfold two
  rw [List.drop_replicate, List.take_replicate, Nat.min_eq_left (by omega)]
  rfl

theorem foldl_max_ge : ∀ (l : List FieldLoc) (i : Nat),
    i ≤ l.foldl (fun acc f => max acc f.id) i ∧ ∀ f ∈ l, f.id ≤ l.foldl (fun acc f => max acc f.id) i
  | [], i => by simp
  | f :: l, i => by
    simp only [List.foldl_cons]
    have ⟨h1, h2⟩ := foldl_max_ge l (max i f.id)
    refine ⟨by omega, ?_⟩
    intro g hg
    rcases List.mem_cons.mp hg with rfl | hg
    · omega
    · exact h2 g hg

theorem vtableByteLen_ge {fls : List FieldLoc} : ∀ f ∈ fls, f.id + 2 ≤ vtableByteLen fls := by
  cases fls with
  | nil => simp
  | cons g l =>
    intro f hf
    have ⟨h1, h2⟩ := foldl_max_ge l g.id
    simp only [vtableByteLen]
    rcases List.mem_cons.mp hf with rfl | hf
    · omega
    · have := h2 f hf; omega

theorem foldl_max_mem : ∀ (l : List FieldLoc) (i : Nat),
    l.foldl (fun acc f => max acc f.id) i = i ∨ ∃ f ∈ l, f.id = l.foldl (fun acc f => max acc f.id) i
  | [], i => Or.inl rfl
  | f :: l, i => by
    simp only [List.foldl_cons]
    rcases foldl_max_mem l (max i f.id) with h | ⟨g, hg, h⟩
    · rcases (by omega : max i f.id = i ∨ max i f.id = f.id) with e | e
      · left; rw [h, e]
      · right; exact ⟨f, List.mem_cons_self .., by rw [h, e]⟩
    · right; exact ⟨g, List.mem_cons_of_mem _ hg, h⟩

theorem vtableByteLen_mem (fls : List FieldLoc) :
    (fls = [] ∧ vtableByteLen fls = 4) ∨ ∃ f ∈ fls, vtableByteLen fls = f.id + 2 := by
  cases fls with
  | nil => exact Or.inl ⟨rfl, rfl⟩
  | cons g l =>
    right
    simp only [vtableByteLen]
    rcases foldl_max_mem l g.id with h | ⟨f, hf, h⟩
    · exact ⟨g, List.mem_cons_self .., by rw [h]⟩
    · exact ⟨f, List.mem_cons_of_mem _ hf, by rw [h]⟩

theorem vtableByteLen_ok {fls : List FieldLoc} (h : ∀ f ∈ fls, SlotOk f.id) :
    4 ≤ vtableByteLen fls ∧ vtableByteLen fls % 2 = 0 ∧ vtableByteLen fls < 65536 := by
  rcases vtableByteLen_mem fls with ⟨_, h1⟩ | ⟨f, hf, h1⟩
  · omega
  · have := h f hf
    unfold SlotOk at this
    omega

theorem writeFieldOffset_spec {buf buf' : Bytes} {o n : Nat}
    (h : VTableWriter.writeFieldOffset buf o n = .ok buf') :
    o + 2 ≤ buf.length ∧ buf' = splice buf o (leBytes 2 n) := by
  unfold VTableWriter.writeFieldOffset at h
  split at h
  · rename_i hl; cases h; exact ⟨hl, rfl⟩
  · cases h

/-- The field loop leaves bytes outside the slots alone. -/
theorem writeFields_ne {m : Mode} {obj j : Nat} : ∀ {fls : List FieldLoc} {buf buf' : Bytes},
    VTableWriter.writeFields m obj fls buf = .ok buf' →
    (∀ f ∈ fls, f.id + 2 ≤ j ∨ j + 2 ≤ f.id) → two buf' j = two buf j
  | [], buf, buf', h, _ => by cases h; rfl
  | fl :: rest, buf, buf', h, hd => by
    rw [writeFields_cons] at h
    obtain ⟨d, _, h⟩ := Res.bind_eq_ok.mp h
    obtain ⟨_, _, h⟩ := Res.bind_eq_ok.mp h
    obtain ⟨b1, h1, h⟩ := Res.bind_eq_ok.mp h
    obtain ⟨hl, rfl⟩ := writeFieldOffset_spec h1
    rw [writeFields_ne h fun f hf => hd f (List.mem_cons_of_mem _ hf)]
    apply two_splice_ne
    · simpa using hl
    · simpa using hd fl (List.mem_cons_self ..)

/-- The field loop stores the distance from the table start in each slot. -/
theorem writeFields_at {m : Mode} {obj : Nat} : ∀ {fls : List FieldLoc} {buf buf' : Bytes},
    VTableWriter.writeFields m obj fls buf = .ok buf' →
    (∀ f ∈ fls, SlotOk f.id) → (fls.map FieldLoc.id).Nodup →
    ∀ f ∈ fls, ∃ d, subW 32 m obj f.off = .ok d ∧ two buf' f.id = leBytes 2 (d % 2 ^ 16)
  | [], buf, buf', h, _, _ => by simp
  | fl :: rest, buf, buf', h, hs, hn => by
    rw [writeFields_cons] at h
    obtain ⟨d, hd, h⟩ := Res.bind_eq_ok.mp h
    obtain ⟨_, _, h⟩ := Res.bind_eq_ok.mp h
    obtain ⟨b1, h1, h⟩ := Res.bind_eq_ok.mp h
    obtain ⟨hl, rfl⟩ := writeFieldOffset_spec h1
    rw [List.map_cons, List.nodup_cons] at hn
    intro f hf
    rcases List.mem_cons.mp hf with rfl | hf
    · refine ⟨d, hd, ?_⟩
      rw [writeFields_ne h]
      · exact two_splice_same (by simp) hl
      · intro g hg
        have h1 := hs g (List.mem_cons_of_mem _ hg)
        have h2 := hs f (List.mem_cons_self ..)
        have hne : g.id ≠ f.id := fun e => hn.1 (List.mem_map.mpr ⟨g, hg, e⟩)
        unfold SlotOk at h1 h2
        omega
    · exact writeFields_at h (fun g hg => hs g (List.mem_cons_of_mem _ hg)) hn.2 f hf

/-- A vtable in the expected format: its first field is its length. -/
structure VtFmt (vt : Bytes) : Prop where
  len4 : 4 ≤ vt.length
  even : vt.length % 2 = 0
  lt : vt.length < 65536
  hdr : two vt 0 = leBytes 2 vt.length

/-- Format of the vtable written for the field locations `fls`. -/
theorem vtableBytes_fmt {m : Mode} {fls : List FieldLoc} {obj tail : Nat} {vt : Bytes}
    (h : ABuilder.vtableBytes m fls obj tail = .ok vt) (hs : ∀ f ∈ fls, SlotOk f.id) :
    VtFmt vt ∧ vt.length = vtableByteLen fls ∧
    (∃ d, subW 32 m obj tail = .ok d ∧ two vt 2 = leBytes 2 (d % 2 ^ 16)) ∧
    ((fls.map FieldLoc.id).Nodup → ∀ f ∈ fls,
      ∃ d, subW 32 m obj f.off = .ok d ∧ two vt f.id = leBytes 2 (d % 2 ^ 16)) ∧
    (∀ s, SlotOk s → s < vt.length → s ∉ fls.map FieldLoc.id → two vt s = leBytes 2 0) := by
  have hl := vtableBytes_length h
  obtain ⟨h4, hev, hlt⟩ := vtableByteLen_ok hs
  unfold ABuilder.vtableBytes at h
  obtain ⟨od, hod, h⟩ := Res.bind_eq_ok.mp h
  obtain ⟨_, _, h⟩ := Res.bind_eq_ok.mp h
  obtain ⟨s1, h1, h⟩ := Res.bind_eq_ok.mp h
  obtain ⟨s2, h2, h⟩ := Res.bind_eq_ok.mp h
  have hl1 := writeVTableByteLength_length h1
  have hl2 := writeObjectInlineSize_length h2
  rw [List.length_replicate] at hl1
  rw [hl1] at hl2
  unfold VTableWriter.writeVTableByteLength at h1
  rw [if_pos (by simp; omega)] at h1
  obtain ⟨_, _, h1⟩ := Res.bind_eq_ok.mp h1
  unfold VTableWriter.writeObjectInlineSize at h2
  rw [if_pos (by omega)] at h2
  cases h1; cases h2
  have hge : ∀ f ∈ fls, 4 ≤ f.id := fun f hf => (hs f hf).2.1
  refine ⟨⟨by omega, by omega, by omega, ?_⟩, hl, ⟨od, hod, ?_⟩, ?_, ?_⟩
  · rw [writeFields_ne h (fun f hf => by have := hge f hf; omega),
      two_splice_ne (by simp [hl1]; omega) (by simp), two_splice_same (by simp) (by simp; omega), hl,
      Nat.mod_eq_of_lt hlt]
  · rw [writeFields_ne h (fun f hf => by have := hge f hf; omega),
      two_splice_same (by simp) (by simp [hl1]; omega)]
  · exact writeFields_at h hs
  · intro s hso hlt' hnot
    rw [writeFields_ne h]
    · have := hso.2.1
      have := hso.1
      rw [two_splice_ne (by simp [hl1]; omega) (by simp; omega), two_splice_ne (by simp; omega) (by simp; omega)]
      exact two_replicate (by omega)
    · intro f hf
      have hne : f.id ≠ s := fun e => hnot (List.mem_map.mpr ⟨f, hf, e⟩)
      have h1 := hs f hf
      unfold SlotOk at h1 hso
      omega

/-! ### Reading -/

/-- A table starts at end-relative position `obj`, and its vtable is `vt`. -/
def TabAt (d : Bytes) (obj : Nat) (vt : Bytes) : Prop :=
  ∃ vtUse : Nat, At d obj (leBytes 4 (ofSigned 32 ((vtUse : Int) - obj))) ∧ At d vtUse vt

theorem TabAt.prepend {d : Bytes} {obj : Nat} {vt : Bytes} (h : TabAt d obj vt) (x : Bytes) :
    TabAt (x ++ d) obj vt := by
  obtain ⟨u, h1, h2⟩ := h
  exact ⟨u, h1.prepend x, h2.prepend x⟩

theorem At.two_at {d vt : Bytes} {rev o : Nat} (h : At d rev vt) (ho : o + 2 ≤ vt.length) :
    At d (rev - o) (two vt o) := by
  have := split_at vt o 2
  rw [this] at h
  have h' := h.sub
  rwa [List.length_take, Nat.min_eq_left (by omega)] at h'

theorem leBytes_two {bs : Bytes} (h : bs.length = 2) : bs = leBytes 2 (leNat bs) ∧ leNat bs < 65536 := by
  have h1 := leBytes_leNat bs
  have h2 := leNat_lt bs
  rw [h] at h1 h2
  exact ⟨h1.symm, h2⟩

theorem numBytes_at {m : Mode} {d vt : Bytes} {u : Nat} (h : At d u vt) (hf : VtFmt vt)
    (hl : d.length < 2 ^ 62) : VTable.numBytes m ⟨d, d.length - u⟩ = .ok vt.length := by
  have hi : isizeMax = 2 ^ 63 - 1 := rfl
  unfold VTable.numBytes
  have h0 := h.two_at (o := 0) (by have := hf.len4; omega)
  rw [hf.hdr] at h0
  have hlt := hf.lt
  have : vt.length < STy.card .u16 := hlt
  exact At.read_nat (t := .u16) this h0 (by simp only; omega)

theorem readNatAt_two {m : Mode} {d : Bytes} {rev : Nat} {bs : Bytes} (h : At d rev bs) (hb : bs.length = 2)
    (hl : d.length < 2 ^ 62) : readNatAt m .u16 d (d.length - rev) = .ok (leNat bs) := by
  have hi : isizeMax = 2 ^ 63 - 1 := rfl
  obtain ⟨e, hlt⟩ := leBytes_two hb
  rw [e] at h
  exact At.read_nat (t := .u16) hlt h (by omega)

theorem vtget_at {m : Mode} {d vt : Bytes} {u s : Nat} (h : At d u vt) (hf : VtFmt vt)
    (hl : d.length < 2 ^ 62) (hs : s % 2 = 0) :
    VTable.get m ⟨d, d.length - u⟩ s =
      .ok (if s < vt.length then some (leNat (two vt s)) else none) := by
  unfold VTable.get
  rw [numBytes_at h hf hl]
  simp only [Res.ok_bind]
  by_cases hlt : s < vt.length
  · rw [if_neg (by omega), if_pos hlt]
    have hev := hf.even
    have hle := h.le
    have hlen := h.len_le
    rw [addU_ok (by omega)]
    simp only [Res.ok_bind]
    have h2 := h.two_at (o := s) (by omega)
    have e : d.length - u + s = d.length - (u - s) := by omega
    rw [e, readNatAt_two h2 (two_length (by omega)) hl]
    rfl
  · rw [if_pos (by omega), if_neg hlt]; rfl

theorem vtable_at {m : Mode} {d vt : Bytes} {obj u : Nat}
    (h1 : At d obj (leBytes 4 (ofSigned 32 ((u : Int) - obj)))) (h2 : At d u vt) (hl : d.length < 2 ^ 31) :
    Table.vtable m ⟨d, d.length - obj⟩ = .ok ⟨d, d.length - u⟩ := by
  have hi : isizeMax = 2 ^ 63 - 1 := rfl
  unfold Table.vtable
  simp only [FTy.follow]
  have hle1 := h1.le
  have hle2 := h2.le
  rw [addU_ok (by omega)]
  simp only [Res.ok_bind]
  have hs := h1.slice_get
  rw [leBytes_length] at hs
  rw [hs]
  simp only [Res.ok_bind]
  have hc : ofSigned 32 ((u : Int) - obj) < STy.card .i32 := ofSigned_lt 32 _
  have hr : readScalar .i32 (leBytes 4 (ofSigned 32 ((u : Int) - obj))) = .ok ⟨_, hc⟩ :=
    readScalar_bytes (t := .i32) ⟨_, hc⟩
  rw [hr]
  simp only [Res.ok_bind]
  have hm : (d.length - obj) % 2 ^ 32 = d.length - obj := Nat.mod_eq_of_lt (by omega)
  have hn : d.length - obj < 2 ^ (32 - 1) := by simp; omega
  have e1 : toSigned 32 ((d.length - obj) % 2 ^ 32) = (d.length : Int) - obj := by
    unfold toSigned
    rw [hm, if_pos hn]; omega
  have e2 : toSigned 32 (ofSigned 32 ((u : Int) - obj)) = (u : Int) - obj := by
    unfold toSigned ofSigned
    split <;> omega
  rw [e1, e2]
  unfold subS
  rw [if_pos (by omega)]
  simp only [Res.ok_bind]
  have e3 : ofSigned 64 ((d.length : Int) - obj - ((u : Int) - obj)) = d.length - u := by
    unfold ofSigned; omega
  rw [e3]
  rfl

/-- What `Table::get` finds in a table laid out by the builder. -/
theorem tableGet_at {m : Mode} {d vt : Bytes} {obj s : Nat} {f : FTy} {dflt : Option f.Inner}
    (h : TabAt d obj vt) (hf : VtFmt vt) (hl : d.length < 2 ^ 31) (hs : s % 2 = 0) :
    Table.get m ⟨d, d.length - obj⟩ f s dflt =
      (if s < vt.length ∧ leNat (two vt s) ≠ 0 then do
        let x ← f.follow m d (d.length - obj + leNat (two vt s))
        return some x
       else .ok dflt) := by
  obtain ⟨u, h1, h2⟩ := h
  unfold Table.get
  rw [vtable_at h1 h2 hl]
  simp only [Res.ok_bind]
  rw [vtget_at h2 hf (by omega) hs]
  simp only [Res.ok_bind]
  have hle1 := h1.le
  by_cases hlt : s < vt.length
  · simp only [hlt, if_true, true_and]
    have hev := hf.even
    have := (leBytes_two (two_length (bs := vt) (o := s) (by omega))).2
    by_cases h0 : leNat (two vt s) = 0
    · simp [h0]
    · simp only [h0, if_false, ne_eq, not_false_eq_true, if_true]
      rw [addU_ok (by omega)]
      rfl
  · simp [hlt]

/-- Following a forward offset pushed by the builder. -/
theorem fwdU_at {m : Mode} {d : Bytes} {rev v : Nat} {f : FTy} (h : At d rev (leBytes 4 (rev - v)))
    (hv : v ≤ rev) (hl : d.length < 2 ^ 31) :
    FTy.follow m (.fwdU f) d (d.length - rev) = f.follow m d (d.length - v) := by
  have hi : isizeMax = 2 ^ 63 - 1 := rfl
  have hle := h.le
  simp only [FTy.follow]
  rw [addU_ok (by omega)]
  simp only [Res.ok_bind]
  have hs := h.slice_get
  rw [leBytes_length] at hs
  rw [hs]
  simp only [Res.ok_bind]
  have hc : rev - v < STy.card .u32 := by
    have : STy.card .u32 = 2 ^ 32 := rfl
    omega
  have hr : readScalar .u32 (leBytes 4 (rev - v)) = .ok ⟨_, hc⟩ :=
    readScalar_bytes (t := .u32) ⟨_, hc⟩
  rw [hr]
  simp only [Res.ok_bind]
  rw [addU_ok (by omega)]
  simp only [Res.ok_bind]
  rw [show d.length - rev + (rev - v) = d.length - v by omega]

end Butte
