import Verif.Rt.Finish
import Verif.Rt.VTHist
import Verif.Rt.TableRT
import Verif.Rt.VecEq
import Verif.Rt.Caller
/-
When the abstract builder does not panic, and by how much the data grows.
-/
namespace Butte

theorem debugAssert_ok {m : Mode} {c : Bool} (h : c = true) : debugAssert m c = .ok () := by
  subst h; cases m <;> rfl

theorem align_okA {m : Mode} {a : ABuilder} {l al : Nat} (hs : a.data.length + l < 2 ^ 63)
    (hal : ∃ k, k < 64 ∧ al = 2 ^ k) :
    ∃ a', a.align m l al = .ok a' ∧ a'.data.length < a.data.length + al ∧ a'.data.length + l < a.data.length + l + al ∧
      (a'.data.length + l) % al = 0 ∧ a.data.length ≤ a'.data.length := by
  have h1 := padding_lt (n := a.data.length + l) (by omega) hal
  have h2 := padding_dvd (n := a.data.length + l) (by omega) hal
  unfold ABuilder.align
  rw [addU_ok (by omega)]
  refine ⟨_, rfl, ?_⟩
  simp only [List.length_append, List.length_replicate]
  refine ⟨by omega, by omega, ?_, by omega⟩
  rw [show paddingBytes (a.data.length + l) al + a.data.length + l =
    a.data.length + l + paddingBytes (a.data.length + l) al by omega]
  exact h2

/-- The value can be pushed: an offset points into the data. -/
def ValOk (a : ABuilder) {p : PTy} (x : PVal p) : Prop :=
  match p with
  | .sc _ => True
  | .off => x.val ≤ a.data.length

theorem ValOk.mono {a a' : ABuilder} {p : PTy} {x : PVal p} (h : ValOk a x) (hl : a.data.length ≤ a'.data.length) :
    ValOk a' x := by
  cases p with
  | sc t => trivial
  | off => simp only [ValOk] at h ⊢; omega

theorem push_okA {m : Mode} {a : ABuilder} {p : PTy} {x : PVal p} (hs : a.data.length < 2 ^ 62) (hx : ValOk a x) :
    ∃ o a', a.push m x = .ok (o, a') ∧ a'.data.length < a.data.length + 2 * p.size ∧
      a'.data.length % p.size = 0 ∧ a.data.length + p.size ≤ a'.data.length ∧
      (a.data.length % p.size = 0 → a'.data.length = a.data.length + p.size) := by
  have h8 : p.size ≤ 8 := p.size_le
  obtain ⟨a1, h1, h2, _, h3, h4⟩ := align_okA (m := m) (a := a) (l := p.size) (al := p.align) (by omega) (PTy.size_p2 p)
  have hb : ∃ bs, x.pushBytes m a1.data.length = .ok bs := by
    cases p with
    | sc t => exact ⟨_, rfl⟩
    | off =>
      simp only [ValOk] at hx
      simp only [PVal.pushBytes]
      simp only [PTy.align, PTy.size] at h2
      rw [addU_ok (by omega)]
      simp only [Res.ok_bind]
      rw [subU_ok (by omega)]
      exact ⟨_, rfl⟩
  obtain ⟨bs, hb⟩ := hb
  have hbl := PVal.pushBytes_length hb
  unfold ABuilder.push
  rw [h1]
  simp only [Res.ok_bind]
  rw [hb]
  refine ⟨_, _, rfl, ?_⟩
  simp only [ABuilder.prepend, List.length_append, hbl]
  simp only [PTy.align] at h2 h3 h1
  refine ⟨by omega, by rw [Nat.add_comm]; exact h3, by omega, fun h0 => ?_⟩
  have := align_spec h1 (by omega)
  rw [this]
  simp only [List.length_append, List.length_replicate]
  rw [padding_zero (by omega) (PTy.size_p2 p) (by rw [Nat.add_mod_right]; exact h0)]
  omega

theorem pushAll_okA {m : Mode} {p : PTy} : ∀ {xs : List (PVal p)} {a : ABuilder},
    a.data.length % p.size = 0 → a.data.length + xs.length * p.size < 2 ^ 62 → (∀ x ∈ xs, ValOk a x) →
    ∃ a', a.pushAll m xs = .ok a' ∧ a'.data.length = a.data.length + xs.length * p.size
  | [], a, _, _, _ => ⟨a, rfl, by simp⟩
  | x :: xs, a, hal, hs, hx => by
    simp only [List.length_cons, Nat.add_mul, Nat.one_mul] at hs ⊢
    obtain ⟨o, a1, h1, _, h2, _, h3⟩ := push_okA (m := m) (a := a) (x := x) (by omega) (hx x (List.mem_cons_self ..))
    have h3 := h3 hal
    obtain ⟨a2, e2, h4⟩ := pushAll_okA (m := m) (xs := xs) (a := a1) h2 (by omega)
      (fun y hy => (hx y (List.mem_cons_of_mem _ hy)).mono (by omega))
    refine ⟨a2, ?_, by omega⟩
    unfold ABuilder.pushAll
    rw [h1]
    exact e2

theorem max4_p2 (p : PTy) : (∃ k, k < 64 ∧ max p.align 4 = 2 ^ k) ∧ max p.align 4 ≤ 8 ∧ max p.align 4 % p.size = 0 := by
  obtain ⟨h1, h2, h3, h4⟩ := p.max4
  exact ⟨h1, h4, Nat.mod_eq_zero_of_dvd h2⟩

theorem createVector_okA {m : Mode} {a : ABuilder} {p : PTy} {xs : List (PVal p)}
    (hs : a.data.length + xs.length * p.size < 2 ^ 61) (hx : ∀ x ∈ xs, ValOk a x) :
    ∃ o a', a.createVector m xs = .ok (o, a') ∧ a'.data.length < a.data.length + xs.length * p.size + 16 := by
  obtain ⟨k1, k2, k3⟩ := max4_p2 p
  obtain ⟨a1, h1, h2, _, h3, h4⟩ := align_okA (m := m) (a := a) (l := xs.length * p.size) (by omega) k1
  have h5 : a1.data.length % p.size = 0 := by
    have : (a1.data.length + xs.length * p.size) % p.size = 0 :=
      Nat.mod_eq_zero_of_dvd (Nat.dvd_trans (Nat.dvd_of_mod_eq_zero k3) (Nat.dvd_of_mod_eq_zero h3))
    rwa [Nat.add_mul_mod_self_right] at this
  obtain ⟨a2, e2, h6⟩ := pushAll_okA (m := m) (xs := xs.reverse) (a := a1) h5 (by rw [List.length_reverse]; omega)
    (fun y hy => (hx y (List.mem_reverse.mp hy)).mono h4)
  rw [List.length_reverse] at h6
  obtain ⟨o, a3, e3, h7, _⟩ := push_okA (m := m) (a := a2) (x := PVal.sc (u32v xs.length)) (by omega) trivial
  have h8 : (PTy.sc STy.u32).size = 4 := rfl
  refine ⟨o, a3, ?_, by omega⟩
  unfold ABuilder.createVector
  rw [mulU_ok (by omega)]
  simp only [Res.ok_bind]
  rw [h1]
  simp only [Res.ok_bind]
  rw [e2]
  exact e3

theorem createVectorDirect_okA {m : Mode} {a : ABuilder} {t : STy} {xs : List (SVal t)} (hn : a.nested = false)
    (hs : a.data.length + xs.length * t.size < 2 ^ 61) :
    ∃ o a', a.createVectorDirect m xs = .ok (o, a') ∧ a'.data.length < a.data.length + xs.length * t.size + 16 := by
  have e := createVectorDirect_eq (m := m) (items := xs) hn (by omega)
  obtain ⟨o, a', e', h⟩ := createVector_okA (m := m) (a := a) (p := .sc t) (xs := xs) hs (fun _ _ => trivial)
  have e2 := createVector_eq (m := m) (a := a) (items := xs) (by omega)
  rw [e'] at e2
  exact ⟨o, a', by rw [e, ← e2], h⟩

theorem createByteString_okA {m : Mode} {a : ABuilder} {bs : Bytes} (hn : a.nested = false)
    (hs : a.data.length + bs.length < 2 ^ 61) :
    ∃ o a', a.createByteString m bs = .ok (o, a') ∧ a'.data.length < a.data.length + bs.length + 16 ∧
      o ≤ a'.data.length ∧ a.data.length ≤ a'.data.length := by
  obtain ⟨a1, h1, h2, _, h3, h4⟩ := align_okA (m := m) (a := a) (l := bs.length + 1) (by omega) ⟨2, by decide, rfl⟩
  obtain ⟨o2, a2, e2, h5, _⟩ := push_okA (m := m) (a := a1) (x := PVal.sc (t := .u8) (0 : Fin 256)) (by omega) trivial
  have h8 : (PTy.sc STy.u8).size = 1 := rfl
  obtain ⟨o3, a3, e3, h6, _, h9, _⟩ := push_okA (m := m) (a := a2.prepend bs) (x := PVal.sc (u32v bs.length))
    (by simp [ABuilder.prepend]; omega) trivial
  have h7 : (PTy.sc STy.u32).size = 4 := rfl
  have h10 := push_len_le e2
  simp only [ABuilder.prepend, List.length_append] at h6 h9
  have ho : o3 ≤ a3.data.length := by
    obtain ⟨_, _, _, ho, _⟩ := push_spec e3 (by simp [ABuilder.prepend]; omega)
    rw [ho]; exact Nat.mod_le _ _
  refine ⟨o3, a3, ?_, by omega, ho, by omega⟩
  unfold ABuilder.createByteString
  rw [debugAssert_ok (by simp [hn])]
  simp only [Res.ok_bind]
  rw [addU_ok (by omega)]
  simp only [Res.ok_bind]
  rw [h1]
  simp only [Res.ok_bind]
  rw [e2]
  exact e3

theorem createString_okA {m : Mode} {a : ABuilder} {s : String} (hn : a.nested = false)
    (hs : a.data.length + (Builder.strBytes s).length < 2 ^ 61) :
    ∃ o a', a.createString m s = .ok (o, a') ∧ a'.data.length < a.data.length + (Builder.strBytes s).length + 16 ∧
      o ≤ a'.data.length ∧ a.data.length ≤ a'.data.length := by
  unfold ABuilder.createString
  rw [debugAssert_ok (by simp [hn])]
  exact createByteString_okA hn hs

theorem stringsCost_append (xs ys : List String) : stringsCost (xs ++ ys) = stringsCost xs + stringsCost ys := by
  induction xs with
  | nil => simp [stringsCost]
  | cons x xs ih => simp only [List.cons_append, stringsCost, ih]; omega

theorem stringsCost_reverse (xs : List String) : stringsCost xs.reverse = stringsCost xs := by
  induction xs with
  | nil => rfl
  | cons x xs ih => simp only [List.reverse_cons, stringsCost_append, stringsCost, ih]; omega

theorem createStrings_okA {m : Mode} : ∀ {xs : List String} {a : ABuilder} {acc : List (PVal .off)},
    a.nested = false → a.data.length + stringsCost xs < 2 ^ 61 → (∀ x ∈ acc, ValOk a x) →
    ∃ os a', a.createStrings m xs acc = .ok (os, a') ∧ a'.data.length ≤ a.data.length + stringsCost xs ∧
      (∀ x ∈ os, ValOk a' x) ∧ os.length = acc.length + xs.length
  | [], a, acc, hn, hs, ha => ⟨acc, a, rfl, by simp [stringsCost], ha, rfl⟩
  | s :: xs, a, acc, hn, hs, ha => by
    simp only [stringsCost] at hs ⊢
    obtain ⟨o, a1, e1, h1, h2, h3⟩ := createString_okA (m := m) (a := a) (s := s) hn (by omega)
    have hn1 : a1.nested = false := by rw [(createString_fl e1).2.2.1]; exact hn
    obtain ⟨os, a2, e2, h4, h5, h6⟩ := createStrings_okA (m := m) (xs := xs) (a := a1) (acc := Builder.offVal o :: acc) hn1
      (by omega) (by
        intro x hx
        rcases List.mem_cons.mp hx with rfl | hx
        · show (Builder.offVal o).val ≤ _
          exact Nat.le_trans (Nat.mod_le _ _) h2
        · exact (ha x hx).mono h3)
    refine ⟨os, a2, ?_, by omega, h5, by simp only [List.length_cons] at h6 ⊢; omega⟩
    unfold ABuilder.createStrings
    rw [e1]
    exact e2

theorem createVectorOfStrings_okA {m : Mode} {a : ABuilder} {xs : List String} (hn : a.nested = false)
    (hs : a.data.length + stringsCost xs + xs.length * 4 < 2 ^ 61) :
    ∃ o a', a.createVectorOfStrings m xs = .ok (o, a') ∧
      a'.data.length < a.data.length + stringsCost xs + xs.length * 4 + 16 := by
  obtain ⟨os, a1, e1, h1, h2, h3⟩ := createStrings_okA (m := m) (xs := xs.reverse) (a := a) (acc := []) hn
    (by rw [stringsCost_reverse]; omega) nofun
  rw [stringsCost_reverse] at h1
  rw [List.length_reverse] at h3
  have h3 : os.length = xs.length := by simpa using h3
  have h8 : PTy.off.size = 4 := rfl
  obtain ⟨o, a2, e2, h4⟩ := createVector_okA (m := m) (a := a1) (xs := os) (by rw [h8, h3]; omega) h2
  rw [h8, h3] at h4
  refine ⟨o, a2, ?_, by omega⟩
  unfold ABuilder.createVectorOfStrings
  rw [debugAssert_ok (by simp [hn])]
  simp only [Res.ok_bind]
  rw [e1]
  exact e2

theorem startVector_okA {m : Mode} {a : ABuilder} {p : PTy} {n : Nat} (hn : a.nested = false)
    (hs : a.data.length + n * p.size < 2 ^ 61) :
    ∃ a', a.startVector m p n = .ok a' ∧ a'.data.length < a.data.length + 8 := by
  obtain ⟨k1, k2, k3⟩ := max4_p2 p
  obtain ⟨a1, h1, h2, _⟩ := align_okA (m := m) (a := { a with nested := true }) (l := n * p.size) (by simp only; omega) k1
  simp only at h2
  refine ⟨a1, ?_, by omega⟩
  unfold ABuilder.startVector
  rw [debugAssert_ok (by simp [hn]), Res.ok_bind, mulU_ok (by omega)]
  exact h1

theorem endVector_okA {m : Mode} {a : ABuilder} {n : Nat} (hn : a.nested = true)
    (hs : a.data.length < 2 ^ 61) :
    ∃ o a', a.endVector m n = .ok (o, a') ∧ a'.data.length < a.data.length + 8 := by
  obtain ⟨o, a1, e, h, _⟩ := push_okA (m := m) (a := { a with nested := false }) (x := PVal.sc (u32v n)) (by simp only; omega) trivial
  have h8 : (PTy.sc STy.u32).size = 4 := rfl
  simp only at h
  refine ⟨o, a1, ?_, by omega⟩
  unfold ABuilder.endVector
  rw [debugAssert_ok hn, Res.ok_bind]
  exact e

theorem pushSlotAlways_okA {m : Mode} {a : ABuilder} {p : PTy} {x : PVal p} {s : Nat} (hn : a.nested = true)
    (hs : a.data.length < 2 ^ 61) (hx : ValOk a x) :
    ∃ a', a.pushSlotAlways m s x = .ok a' ∧ a'.data.length < a.data.length + 2 * p.size := by
  obtain ⟨o, a1, e, h, _⟩ := push_okA (m := m) (a := a) (x := x) (by omega) hx
  unfold ABuilder.pushSlotAlways
  rw [debugAssert_ok hn, Res.ok_bind, e]
  exact ⟨_, rfl, h⟩

theorem pushSlot_okA {m : Mode} {a : ABuilder} {p : PTy} {x d : PVal p} {s : Nat} (hn : a.nested = true)
    (hs : a.data.length < 2 ^ 61) (hx : ValOk a x) :
    ∃ a', a.pushSlot m s x d = .ok a' ∧ a'.data.length < a.data.length + 2 * p.size := by
  unfold ABuilder.pushSlot
  rw [debugAssert_ok hn, Res.ok_bind]
  split
  · have := p.size_pos
    exact ⟨_, rfl, by omega⟩
  · exact pushSlotAlways_okA hn hs hx

theorem startTable_okA {m : Mode} {a : ABuilder} (hn : a.nested = false) :
    a.startTable m = .ok (a.data.length % 2 ^ 32, { a with nested := true }) := by
  unfold ABuilder.startTable
  rw [debugAssert_ok (by simp [hn])]; rfl

/-! `end_table` -/

theorem writeFields_okA {m : Mode} {obj : Nat} : ∀ {fls : List FieldLoc} {buf : Bytes},
    (∀ f ∈ fls, SlotOk f.id ∧ f.id + 2 ≤ buf.length ∧ f.off ≤ obj ∧ two buf f.id = leBytes 2 0) →
    (fls.map FieldLoc.id).Nodup → buf.length < 2 ^ 62 →
    ∃ buf', VTableWriter.writeFields m obj fls buf = .ok buf'
  | [], buf, _, _, _ => ⟨buf, rfl⟩
  | f :: rest, buf, h, hn, hl => by
    obtain ⟨h1, h2, h3, h4⟩ := h f (List.mem_cons_self ..)
    rw [List.map_cons, List.nodup_cons] at hn
    rw [writeFields_cons, show subW 32 m obj f.off = .ok (obj - f.off) from if_pos h3]
    simp only [Res.ok_bind]
    have hc : fieldCheck m buf f.id = .ok () := by
      unfold fieldCheck
      split
      · have hat : At buf (buf.length - f.id) (two buf f.id) := by
          have := split_at buf f.id 2
          refine ⟨_, _, this, ?_⟩
          simp [two]; omega
        have := readNatAt_two (m := m) hat (two_length h2) hl
        rw [show buf.length - (buf.length - f.id) = f.id by omega] at this
        unfold VTableWriter.getFieldOffset
        rw [this, h4]
        simp only [Res.expect, Res.ok_bind]
        exact debugAssert_ok (by decide)
      · rfl
    rw [hc]
    simp only [Res.ok_bind]
    unfold VTableWriter.writeFieldOffset
    rw [if_pos h2]
    simp only [Res.ok_bind]
    have hlen : (splice buf f.id (leBytes 2 ((obj - f.off) % 2 ^ 16))).length = buf.length := by
      rw [splice_length]; simp; omega
    refine writeFields_okA ?_ hn.2 (by rw [hlen]; exact hl)
    intro g hg
    obtain ⟨g1, g2, g3, g4⟩ := h g (List.mem_cons_of_mem _ hg)
    refine ⟨g1, by rw [hlen]; exact g2, g3, ?_⟩
    have hne : g.id ≠ f.id := fun e => hn.1 (e ▸ List.mem_map_of_mem hg)
    unfold SlotOk at h1 g1
    rw [two_splice_ne (by simp; omega) (by simp; omega)]
    exact g4

theorem vtableBytes_okA {m : Mode} {fls : List FieldLoc} {obj tail : Nat} (ht : tail ≤ obj)
    (hsz : obj - tail < 65536) (hf : ∀ f ∈ fls, SlotOk f.id ∧ f.off ≤ obj) (hn : (fls.map FieldLoc.id).Nodup) :
    ∃ vt, ABuilder.vtableBytes m fls obj tail = .ok vt := by
  obtain ⟨h4, hev, hlt⟩ := vtableByteLen_ok (fls := fls) (fun f h => (hf f h).1)
  unfold ABuilder.vtableBytes
  simp only
  rw [show subW 32 m obj tail = .ok (obj - tail) from if_pos ht, Res.ok_bind, debugAssert_ok (decide_eq_true hsz),
    Res.ok_bind]
  unfold VTableWriter.writeVTableByteLength
  rw [if_pos (by simp; omega)]
  rw [debugAssert_ok (by simp; omega)]
  simp only [Res.ok_bind, Res.pure_eq]
  unfold VTableWriter.writeObjectInlineSize
  have hl1 : (splice (List.replicate (vtableByteLen fls) (0 : UInt8)) 0 (leBytes 2 (vtableByteLen fls % 2 ^ 16))).length =
      vtableByteLen fls := by
    rw [splice_length]; simp; simp; omega
  rw [if_pos (by rw [hl1]; exact h4)]
  simp only [Res.ok_bind]
  have hl2 : (splice (splice (List.replicate (vtableByteLen fls) (0 : UInt8)) 0 (leBytes 2 (vtableByteLen fls % 2 ^ 16)))
      2 (leBytes 2 ((obj - tail) % 2 ^ 16))).length = vtableByteLen fls := by
    rw [splice_length, hl1]; rw [hl1]; simp; omega
  refine writeFields_okA ?_ hn (by rw [hl2]; omega)
  intro f h
  obtain ⟨g1, g2⟩ := hf f h
  have g3 := vtableByteLen_ge f h
  refine ⟨g1, by rw [hl2]; exact g3, g2, ?_⟩
  unfold SlotOk at g1
  rw [two_splice_ne (by rw [hl1]; simp; omega) (by simp; omega),
    two_splice_ne (by simp; omega) (by simp; omega), two_replicate (by omega)]

theorem findDuplicate_okA {m : Mode} {d vt : Bytes} (hv : At d d.length vt) (hf : VtFmt vt) (hl : d.length < 2 ^ 62) :
    ∀ {revs : List Nat}, (∀ r ∈ revs, ∃ vt', VtFmt vt' ∧ At d r vt') →
      ∃ o, ABuilder.findDuplicate m d revs = .ok o ∧ ∀ n, o = some n → n ∈ revs
  | [], _ => ⟨none, rfl, nofun⟩
  | r :: rest, h => by
    unfold ABuilder.findDuplicate
    obtain ⟨vt', hf', hv'⟩ := h r (List.mem_cons_self ..)
    have e1 := asBytes_at (m := m) hv hf hl
    have e2 := asBytes_at (m := m) hv' hf' hl
    rw [Nat.sub_self] at e1
    have : VTable.eqv m ⟨d, 0⟩ ⟨d, d.length - r⟩ = .ok (decide (vt = vt')) := by
      unfold VTable.eqv
      rw [e1, e2]
      by_cases he : vt = vt' <;> simp [he]
    rw [this]
    simp only [Res.ok_bind]
    split
    · exact ⟨_, rfl, by rintro n ⟨⟩; exact List.mem_cons_self ..⟩
    · obtain ⟨o, e, k⟩ := findDuplicate_okA hv hf hl (revs := rest) (fun r hr => h r (List.mem_cons_of_mem _ hr))
      exact ⟨o, e, fun n hn => List.mem_cons_of_mem _ (k n hn)⟩

theorem toSigned_small {n : Nat} (h : n < 2 ^ 31) : toSigned 32 n = (n : Int) := by
  unfold toSigned; rw [if_pos (by simpa using h)]

theorem patch_okA {m : Mode} {d : Bytes} {u obj : Nat} (hat : At d obj (leBytes 4 0xF0F0F0F0)) (hu : u < 2 ^ 31)
    (ho : d.length < 2 ^ 31) : ∃ d', ABuilder.patch m d u obj = .ok d' := by
  have hi : isizeMax = 2 ^ 63 - 1 := rfl
  have hle := hat.le
  unfold ABuilder.patch
  simp only
  rw [At.read_nat (t := .u32) (by decide) hat (by omega)]
  simp only [Res.expect, Res.ok_bind]
  rw [debugAssert_ok (by decide), Res.ok_bind, toSigned_small hu, toSigned_small (by omega)]
  unfold subS
  rw [if_pos (by constructor <;> simp <;> omega)]
  exact ⟨_, rfl⟩

theorem endTable_okA {m : Mode} {a : ABuilder} {tail : Nat} (hn : a.nested = true) (ht : tail ≤ a.data.length)
    (hsz : a.data.length + 7 < tail + 65536) (hs : a.data.length < 2 ^ 31 - 2 ^ 17)
    (hf : ∀ f ∈ a.fieldLocs, SlotOk f.id ∧ f.off ≤ a.data.length) (hnd : (a.fieldLocs.map FieldLoc.id).Nodup)
    (hi : VTInv a) :
    ∃ o a', a.endTable m tail = .ok (o, a') ∧ a'.data.length < a.data.length + 8 + 65536 := by
  obtain ⟨obj, a1, e1, h1, _, h2, _⟩ := push_okA (m := m) (a := a) (x := PVal.sc (u32v 0xF0F0F0F0)) (by omega) trivial
  have h8 : (PTy.sc STy.u32).size = 4 := rfl
  obtain ⟨bs, hbs, hbl, ho1, ha1⟩ := push_spec e1 (by omega)
  rw [h8] at h1 h2
  rw [Nat.mod_eq_of_lt (by omega)] at ho1
  have hfl := push_fl e1
  simp only at hfl
  obtain ⟨vt, e2⟩ := vtableBytes_okA (m := m) (fls := a1.fieldLocs) (obj := obj) (tail := tail) (by omega) (by omega)
    (by rw [hfl.1]; intro f h; exact ⟨(hf f h).1, by have := (hf f h).2; omega⟩) (by rw [hfl.1]; exact hnd)
  obtain ⟨fm, hvl, _⟩ := vtableBytes_fmt e2 (by rw [hfl.1]; exact fun f h => (hf f h).1)
  have hfl4 := fm.lt
  have hlen : (vt ++ a1.data).length = vt.length + a1.data.length := by simp
  obtain ⟨dup, e3, hdup⟩ := findDuplicate_okA (m := m) (d := vt ++ a1.data) (At.head vt a1.data) fm (by omega)
    (revs := a1.vtables.reverse) (by
      intro r hr
      have hr := List.mem_reverse.mp hr
      rw [hfl.2.1] at hr
      obtain ⟨vt', k1, k2⟩ := hi.le r hr
      refine ⟨vt', k1, ?_⟩
      rw [ha1]
      exact ((k2.prepend _).prepend _).prepend _)
  have hm : At a1.data obj (leBytes 4 0xF0F0F0F0) := by
    have hbe : bs = leBytes 4 0xF0F0F0F0 := by
      simp only [PVal.pushBytes, Res.ok.injEq] at hbs
      rw [← hbs, u32v_bytes']
    refine ⟨[], List.replicate (paddingBytes (a.data.length + 4) 4) 0 ++ a.data, ?_, ?_⟩
    · rw [ha1, ← hbe]; rfl
    · rw [ho1, ha1, leBytes_length]
      simp only [List.length_append, hbl, h8]
  unfold ABuilder.endTable ABuilder.writeVTable
  rw [debugAssert_ok hn]
  simp only [Res.ok_bind]
  rw [e1]
  simp only [Res.ok_bind]
  rw [e2]
  simp only [Res.ok_bind]
  rw [e3]
  simp only [Res.ok_bind]
  cases dup with
  | some n =>
    have hnm := List.mem_reverse.mp (hdup n rfl)
    rw [hfl.2.1] at hnm
    have hnb := hi.bound n hnm
    obtain ⟨d', e4⟩ := patch_okA (m := m) (u := n) hm (by omega) (by omega)
    have hpl := patch_length e4
    simp only [e4, Res.ok_bind, Res.pure_eq]
    exact ⟨_, _, rfl, by simp only; omega⟩
  | none =>
    obtain ⟨d', e4⟩ := patch_okA (m := m) (u := (vt ++ a1.data).length % 2 ^ 32) (hm.prepend vt)
      (by rw [hlen, Nat.mod_eq_of_lt (by omega)]; omega) (by omega)
    have hpl := patch_length e4
    simp only [e4, Res.ok_bind, Res.pure_eq]
    exact ⟨_, _, rfl, by simp only; omega⟩

/-! `required`, `finish` -/

theorem required_okA {m : Mode} {a : ABuilder} {obj base slot : Nat} {flds : List Fld}
    (h : TblAt m a.data obj base flds) (hl : a.data.length < 2 ^ 31) (hs : slot ∈ flds.map Fld.slot) :
    a.required m obj slot = .ok () := by
  have hle := h.le
  obtain ⟨v, h1, h2, _⟩ := h.vtget hl
  obtain ⟨f, hf, rfl⟩ := List.mem_map.mp hs
  obtain ⟨o, h3, h4⟩ := h2 f hf
  unfold ABuilder.required
  rw [subU_ok hle]
  simp only [Res.ok_bind]
  rw [h1]
  simp only [Res.expect, Res.ok_bind]
  rw [h3]
  simp only [Res.ok_bind]
  unfold assert
  rw [if_pos (by simpa using h4)]

theorem finish_okA {m : Mode} {a : ABuilder} {root : Nat} {ident : Option Bytes} {sp : Bool}
    (hn : a.nested = false) (hf : a.finished = false) (hma : MAOk a.minAlign) (h0 : a.minAlign ≠ 0)
    (hi : ∀ i, ident = some i → i.length = 4) (hr : root ≤ a.data.length) (hs : a.data.length < 2 ^ 60) :
    ∃ a', a.finishWithOpts m root ident sp = .ok a' ∧ a'.data.length < a.data.length + 32 := by
  have hp2 : (∃ k, k < 64 ∧ a.minAlign = 2 ^ k) ∧ a.minAlign ≤ 8 := by
    rcases hma with h | h | h | h | h
    · exact absurd h h0
    · exact ⟨⟨0, by decide, h⟩, by omega⟩
    · exact ⟨⟨1, by decide, h⟩, by omega⟩
    · exact ⟨⟨2, by decide, h⟩, by omega⟩
    · exact ⟨⟨3, by decide, h⟩, by omega⟩
  obtain ⟨a1, e1, k1, _, _, k2⟩ := align_okA (m := m) (a := { a with vtables := [] })
    (l := 4 + (if sp then 4 else 0) + (if ident.isSome then 4 else 0)) (by simp only; split <;> split <;> omega) hp2.1
  simp only at k1 k2
  have : ∃ a2, ABuilder.pushIdent m a1 ident = .ok a2 ∧ a2.data.length ≤ a1.data.length + 4 ∧
      a1.data.length ≤ a2.data.length := by
    cases ident with
    | none => exact ⟨a1, rfl, by omega, by omega⟩
    | some i =>
      have := hi i rfl
      simp only [ABuilder.pushIdent]
      rw [debugAssert_ok (by simp [this])]
      exact ⟨_, rfl, by simp [ABuilder.prepend]; omega, by simp [ABuilder.prepend]⟩
  obtain ⟨a2, e2, k3, k4⟩ := this
  obtain ⟨o3, a3, e3, k5, _⟩ := push_okA (m := m) (a := a2) (x := Builder.offVal root) (by omega) (by
    show (Builder.offVal root).val ≤ _
    exact Nat.le_trans (Nat.mod_le _ _) (by omega))
  have h8 : PTy.off.size = 4 := rfl
  have : ∃ a4, ABuilder.pushSizePrefix m a3 sp = .ok a4 ∧ a4.data.length < a3.data.length + 8 := by
    unfold ABuilder.pushSizePrefix
    split
    · obtain ⟨o4, a4, e4, k6, _⟩ := push_okA (m := m) (a := a3) (x := PVal.sc (u32v a3.data.length)) (by omega) trivial
      have h8 : (PTy.sc STy.u32).size = 4 := rfl
      rw [e4]
      exact ⟨a4, rfl, by omega⟩
    · exact ⟨a3, rfl, by omega⟩
  obtain ⟨a4, e4, k6⟩ := this
  unfold ABuilder.finishWithOpts
  rw [debugAssert_ok (by simp [hf]), Res.ok_bind, debugAssert_ok (by simp [hn]), Res.ok_bind]
  simp only
  rw [e1]
  simp only [Res.ok_bind]
  rw [e2]
  simp only [Res.ok_bind]
  rw [e3]
  simp only [Res.ok_bind]
  rw [e4]
  exact ⟨_, rfl, by simp only; omega⟩

end Butte
