import Verif.Props.Tables
/-
Properties C13, C23, C24 and C58: alignment, identifier and size prefix of finished buffers.
-/
namespace Butte

set_option maxRecDepth 4000

/-! ### C13 -/

theorem sub_mod {L o k : Nat} (h1 : L % k = 0) (h2 : o % k = 0) : (L - o) % k = 0 :=
  Nat.mod_eq_zero_of_dvd (Nat.dvd_sub (Nat.dvd_of_mod_eq_zero h1) (Nat.dvd_of_mod_eq_zero h2))

/-- **C13** (values) A value pushed in any state: in the finished buffer it lies at a multiple of its size, and
the length of the buffer is a multiple of its size. Addresses are counted from the first byte of the buffer:
what `push` returns as `o` is at address `length - o`. -/
theorem C13_pushed_values_aligned (m : Mode) (b b₁ b₂ : Builder) (p : PTy) (x : PVal p) (o : Nat) (rest : List Op)
    (root : Fin (2 ^ 32)) (ident : Option Bytes) (sp : Bool) (hb : Reachable m b)
    (e : step m b (.push p x) = .ok (some o, b₁)) (hf : Finishes m b₁ rest root ident sp b₂)
    (hs : b₂.usedSpace < 2 ^ 32) :
    ∃ data, b₂.finishedData m = .ok data ∧ o ≤ data.length ∧
      (data.length - o) % p.size = 0 ∧ data.length % p.size = 0 := by
  obtain ⟨a, ra⟩ := hb.toR
  obtain ⟨a₁, f, ra1⟩ := ra.step e
  simp only [stepA] at f
  have f1 := withRetA_some f
  obtain ⟨a₂, a', k1, k2, k3, _, _, _, k7, k8, k9, k10⟩ := hf.toA (hb.step e) ra1 hs
  have l2 := k2.len
  have l3 := k3.len
  obtain ⟨q1, q2, q3, q4, q5, _, _, _, _, q6⟩ := push_pat f1 (by omega)
  have hL := k10 p.size p.maOk p.size_pos (by omega)
  exact ⟨a'.data, k9, by omega, sub_mod hL q5, hL⟩

/-- What a creating call writes: its element size (1 for strings). -/
def Op.elemSize : Op → Option Nat
  | .createString _ | .createByteString _ => some 1
  | .createVectorDirect t _ => some t.size
  | .createVector p _ => some p.size
  | .createVectorOfStrings _ => some 4
  | _ => none

/-- **C13** (strings and vectors) The length prefix of every string and vector lies at a multiple of 4, and its
elements (which start 4 bytes later) at multiples of the element size. -/
theorem C13_strings_and_vectors_aligned (m : Mode) (b b₁ b₂ : Builder) (op : Op) (k o : Nat) (rest : List Op)
    (root : Fin (2 ^ 32)) (ident : Option Bytes) (sp : Bool) (hb : Reachable m b) (hk : op.elemSize = some k)
    (e : step m b op = .ok (some o, b₁)) (hf : Finishes m b₁ rest root ident sp b₂)
    (hs : b₂.usedSpace < 2 ^ 32) :
    ∃ data, b₂.finishedData m = .ok data ∧ o ≤ data.length ∧
      (data.length - o) % 4 = 0 ∧ (data.length - o + 4) % k = 0 ∧ data.length % k = 0 := by
  obtain ⟨a, ra⟩ := hb.toR
  obtain ⟨a₁, f, ra1⟩ := ra.step e
  obtain ⟨a₂, a', k1, k2, k3, _, _, _, k7, k8, k9, k10⟩ := hf.toA (hb.step e) ra1 hs
  have l2 := k2.len
  have l3 := k3.len
  -- what each call guarantees
  have key : o = a₁.data.length ∧ o % 4 = 0 ∧ 4 ≤ o ∧ (o - 4) % k = 0 ∧ max k 4 ≤ a₁.minAlign ∧ MAOk k ∧ 0 < k := by
    have vec : ∀ {p : PTy} {xs : List (PVal p)} {a a₁ : ABuilder}, a₁.data.length < 2 ^ 32 →
        a.createVector m xs = .ok (o, a₁) →
        o = a₁.data.length ∧ o % 4 = 0 ∧ 4 ≤ o ∧ (o - 4) % p.size = 0 ∧ max p.size 4 ≤ a₁.minAlign ∧
        MAOk p.size ∧ 0 < p.size := by
      intro p xs a a₁ hl h
      obtain ⟨q1, q2, q3, _, _, q6, q7⟩ := createVector_spec h hl
      refine ⟨q1, q2, ?_, q3, by rw [q7]; simp only; omega, p.maOk, p.size_pos⟩
      omega
    have str : ∀ {bs : Bytes} {a a₁ : ABuilder}, a₁.data.length < 2 ^ 32 → a.createByteString m bs = .ok (o, a₁) →
        o = a₁.data.length ∧ o % 4 = 0 ∧ 4 ≤ o ∧ (o - 4) % 1 = 0 ∧ max 1 4 ≤ a₁.minAlign ∧
        MAOk 1 ∧ 0 < 1 := by
      intro bs a a₁ hl h
      obtain ⟨q1, q2, q3⟩ := createByteString_spec h hl
      refine ⟨q1, q2, ?_, by omega, by rw [q3]; simp only; omega, by unfold MAOk; decide, by decide⟩
      have : a₁.data.length = (strObj bs).length + (paddingBytes (a.data.length + (bs.length + 1)) 4 + a.data.length) := by
        rw [q3]; simp
      unfold strObj at this
      simp at this
      omega
    cases op <;> simp only [Op.elemSize, Option.some.injEq, reduceCtorEq] at hk <;> subst hk <;> simp only [stepA] at f
    case createString s =>
      have f1 := withRetA_some f
      unfold ABuilder.createString at f1
      obtain ⟨_, _, f1⟩ := Res.bind_eq_ok.mp f1
      exact str (by omega) f1
    case createByteString bs => exact str (by omega) (withRetA_some f)
    case createVector p xs => exact vec (by omega) (withRetA_some f)
    case createVectorOfStrings xs =>
      have f1 := withRetA_some f
      unfold ABuilder.createVectorOfStrings at f1
      obtain ⟨_, _, f1⟩ := Res.bind_eq_ok.mp f1
      obtain ⟨_, _, f1⟩ := Res.bind_eq_ok.mp f1
      exact vec (by omega) f1
    case createVectorDirect t xs =>
      have f1 := withRetA_some f
      have hsz : (PTy.sc t).size = t.size := rfl
      have hle := PTy.size_pos (.sc t)
      have hmo := PTy.maOk (.sc t)
      have hn : debugAssert m (!a.nested) = .ok () := by
        unfold ABuilder.createVectorDirect at f1
        obtain ⟨⟨⟩, h, _⟩ := Res.bind_eq_ok.mp f1
        exact h
      have hbig : xs.length * t.size + a.data.length ≤ a₁.data.length := by
        unfold ABuilder.createVectorDirect at f1
        obtain ⟨_, _, f1⟩ := Res.bind_eq_ok.mp f1
        obtain ⟨_, _, f1⟩ := Res.bind_eq_ok.mp f1
        obtain ⟨a3, f3, f1⟩ := Res.bind_eq_ok.mp f1
        have h1 := (align_ext f3).len
        have h2 := push_len_le f1
        have h3 := scalarBytes_length xs
        unfold scalarBytes at h3
        simp only [ABuilder.prepend, List.length_append] at h2
        omega
      have f2 := createVectorDirect_eq' (m := m) hn (items := xs) (by omega)
      rw [f1] at f2
      injection f2 with f2
      injection f2 with f2 f3
      obtain ⟨v1, v2, v3⟩ := vec_align (a := a) (t := t) (n := xs.length) (by omega)
      have hlen : a₁.data.length = 4 + (xs.length * t.size + (paddingBytes (a.data.length + xs.length * t.size) (max t.size 4) + a.data.length)) := by
        rw [f3]
        simp only [vecResult, List.length_append, leBytes_length, scalarBytes_length, List.length_replicate]
      have ho : o = a₁.data.length := by rw [f2, f3, Nat.mod_eq_of_lt]; rw [← f3]; omega
      refine ⟨ho, by omega, by omega, ?_, by rw [f3]; simp only [vecResult]; omega, hmo, hle⟩
      rw [ho, hlen, Nat.add_sub_cancel_left, Nat.add_comm, Nat.add_mul_mod_self_right]
      exact v2
  obtain ⟨g1, g2, g3, g4, g5, g6, g7⟩ := key
  have hL4 := k10 4 four_maOk (by decide) (by omega)
  have hLk := k10 k g6 g7 (by omega)
  refine ⟨a'.data, k9, by omega, by omega, ?_, hLk⟩
  rw [show a'.data.length - o + 4 = a'.data.length - (o - 4) by omega]
  exact sub_mod hLk g4

/-- **C13** (hand-built vectors) The length written by `end_vector` lies at a multiple of 4; the elements are
pushed values. -/
theorem C13_end_vector_aligned (m : Mode) (b b₁ b₂ : Builder) (n : Fin (2 ^ 64)) (o : Nat) (rest : List Op)
    (root : Fin (2 ^ 32)) (ident : Option Bytes) (sp : Bool) (hb : Reachable m b)
    (e : step m b (.endVector n) = .ok (some o, b₁)) (hf : Finishes m b₁ rest root ident sp b₂)
    (hs : b₂.usedSpace < 2 ^ 32) :
    ∃ data, b₂.finishedData m = .ok data ∧ o ≤ data.length ∧ (data.length - o) % 4 = 0 ∧ data.length % 4 = 0 := by
  obtain ⟨a, ra⟩ := hb.toR
  obtain ⟨a₁, f, ra1⟩ := ra.step e
  simp only [stepA] at f
  have f1 := withRetA_some f
  unfold ABuilder.endVector at f1
  obtain ⟨_, _, f1⟩ := Res.bind_eq_ok.mp f1
  obtain ⟨a₂, a', k1, k2, k3, _, _, _, k7, k8, k9, k10⟩ := hf.toA (hb.step e) ra1 hs
  have l2 := k2.len
  have l3 := k3.len
  obtain ⟨q1, q2, q3, q4, q5, _, _, _, _, q6⟩ := push_pat f1 (by omega)
  have hsz : (PTy.sc STy.u32).size = 4 := rfl
  rw [hsz] at q5 q6
  have hL := k10 4 four_maOk (by decide) (by omega)
  exact ⟨a'.data, k9, by omega, sub_mod hL q5, hL⟩

/-- **C13** (tables) A table starts at a multiple of 4, and every field found through its vtable lies at a multiple
of its size. -/
theorem C13_tables_aligned (m : Mode) (b b₁ b₂ : Builder) (body rest : List Op) (obj : Nat)
    (root : Fin (2 ^ 32)) (ident : Option Bytes) (sp : Bool) (hi : Idle m b) (h : BuildsTable m b body obj b₁)
    (hf : Finishes m b₁ rest root ident sp b₂) (hs : b₂.usedSpace < 2 ^ 31) :
    ∃ data v, b₂.finishedData m = .ok data ∧ obj ≤ data.length ∧ (data.length - obj) % 4 = 0 ∧
      data.length % 4 = 0 ∧ Table.vtable m ⟨data, data.length - obj⟩ = .ok v ∧
      ∀ f ∈ body.filterMap Op.stored, ∃ vo, v.get m f.slot = .ok (some vo) ∧ 0 < vo ∧
        (data.length - obj + vo) % f.p.size = 0 ∧ data.length % f.p.size = 0 := by
  have hb := (h.idle hi).reachable
  obtain ⟨_, ra⟩ := hb.toR
  obtain ⟨a₁, a', k1, k2, k3, _, k5, k6, k7, k8, k9, k10⟩ := hf.toA hb ra (by omega)
  have l2 := k2.len
  have l3 := k3.len
  obtain ⟨a0, a₁', q1, q2, q3, q4, q5, q6, q7, q8, _, _, _, q9, q10, _⟩ := h.toA hi (by rw [ra.used]; omega)
  obtain ⟨a₂', a'', k1, k2, k3, _, k5, k6, k7, k8, k9, k10⟩ := hf.toA hb q2 (by omega)
  have ht := (q4.ext k2).ext k3
  have hl : a''.data.length < 2 ^ 31 := by omega
  obtain ⟨vt, h1, ⟨u, h2, h2'⟩, h3, h4⟩ := ht
  have hL4 := k10 4 four_maOk (by decide) q9
  have hole := h2.le
  refine ⟨a''.data, _, k9, hole, by omega, hL4, vtable_at h2 h2' hl, ?_⟩
  intro f hf
  obtain ⟨g1, g2, off, g3, g4, g5, g6, g7⟩ := h3 f hf
  have hLk := k10 f.p.size f.p.maOk f.p.size_pos (q10 f hf)
  refine ⟨obj - off, ?_, by omega, ?_, hLk⟩
  · rw [vtget_at h2' h1 (by omega) g1, if_pos g2, g6]
  · rw [show a''.data.length - obj + (obj - off) = a''.data.length - off by omega]
    exact sub_mod hLk g7

/-! ### C23 -/

/-- **C23** A table, vector, string or wide value is written, then anything but `reset`, then `finish` with an
identifier: `buffer_has_identifier` accepts that identifier and rejects every other one. -/
theorem C23_identifier (m : Mode) (b b₁ b₂ : Builder) (op : Op) (r : Option Nat) (rest : List Op)
    (root : Fin (2 ^ 32)) (i j : Bytes) (sp : Bool) (hb : Reachable m b) (hw : op.wide = true)
    (e : step m b op = .ok (r, b₁)) (hf : Finishes m b₁ rest root (some i) sp b₂)
    (hs : b₂.usedSpace < 2 ^ 32) (hj : j.length = 4) :
    ∃ data, b₂.finishedData m = .ok data ∧ bufferHasIdentifier m data j sp = .ok (decide (j = i)) := by
  obtain ⟨a, ra⟩ := hb.toR
  obtain ⟨a₁, f, ra1⟩ := ra.step e
  obtain ⟨a₂, a', k1, k2, k3, k4, k5, k6, k7, k8, k9, k10⟩ := hf.toA (hb.step e) ra1 hs
  have l2 := k2.len
  have l3 := k3.len
  have h4 := stepA_wide f hw (by simp only; omega)
  simp only at h4
  refine ⟨a'.data, k9, ?_⟩
  rw [finish_ident k6 k5 (hf.ident4 i rfl) (by omega) (by omega) j hj]
  congr 1
  rw [Bool.eq_iff_iff]
  simp

/-- **C58, the part that holds** (full statement: the same for every history; missing: histories that wrote only
1- or 2-byte values, see `C58_refuted`). -/
theorem C58_partial (m : Mode) (b b₁ b₂ : Builder) (op : Op) (r : Option Nat) (rest : List Op)
    (root : Fin (2 ^ 32)) (i : Bytes) (sp : Bool) (hb : Reachable m b) (hw : op.wide = true)
    (e : step m b op = .ok (r, b₁)) (hf : Finishes m b₁ rest root (some i) sp b₂) (hs : b₂.usedSpace < 2 ^ 32) :
    ∃ data, b₂.finishedData m = .ok data ∧ bufferHasIdentifier m data i sp = .ok true := by
  obtain ⟨data, h1, h2⟩ := C23_identifier m b b₁ b₂ op r rest root i i sp hb hw e hf hs (hf.ident4 i rfl)
  exact ⟨data, h1, by rw [h2]; simp⟩

/-- **C58 is false of the code**: when only 1- or 2-byte values were written, `finish` puts padding between the
root offset and the identifier, and `buffer_has_identifier` does not find it. -/
theorem C58_refuted (m : Mode) : ∃ b b₁, Reachable m b ∧ Finishes m b [] 1 (some [65, 66, 67, 68]) false b₁ ∧
    b₁.usedSpace < 2 ^ 31 ∧
    ∃ data, b₁.finishedData m = .ok data ∧ bufferHasIdentifier m data [65, 66, 67, 68] false = .ok false := by
  have h : (fromNew m 64 [.push (.sc .u8) (u8c 7), .finish 1 (some [65, 66, 67, 68]) false]).okAnd
      (fun r => decide (r.2.usedSpace < 2 ^ 31) &&
        decide ((r.2.finishedData m >>= fun d => bufferHasIdentifier m d [65, 66, 67, 68] false) = .ok false)) = true := by
    cases m <;> decide
  obtain ⟨b0, r, b₁, h0, h1, h2⟩ := fromNew_ex h
  rw [show [Op.push (.sc .u8) (u8c 7), .finish 1 (some [65, 66, 67, 68]) false] =
    [.push (.sc .u8) (u8c 7)] ++ [.finish 1 (some [65, 66, 67, 68]) false] from rfl] at h1
  obtain ⟨r1, b, r2, e1, e2, _⟩ := run_append.mp h1
  simp only [Bool.and_eq_true, decide_eq_true_eq] at h2
  obtain ⟨d, d1, d2⟩ := Res.bind_eq_ok.mp h2.2
  refine ⟨b, b₁, ⟨64, b0, _, _, h0, e1⟩, ⟨⟨b, [], rfl, ?_⟩, nofun, ?_⟩, h2.1, d, d1, d2⟩
  · obtain ⟨r, e, _⟩ := run_singleton.mp e2
    have : r = none := by
      simp only [step, noRet] at e
      obtain ⟨_, _, e⟩ := Res.bind_eq_ok.mp e
      cases e; rfl
    subst this; exact e
  · rintro _ ⟨⟩; rfl

/-! ### C24 -/

/-- **C24** After `finish_size_prefixed` the first four bytes count the rest; the size-prefixed root and the root
of the rest are the same object; and (next theorem) it reads the same. -/
theorem C24_size_prefix (m : Mode) (b b' : Builder) (rest : List Op) (root : Fin (2 ^ 32)) (ident : Option Bytes)
    (hb : Reachable m b) (h : Finishes m b rest root ident true b') (hr : root.val ≤ b.usedSpace)
    (hs : b'.usedSpace < 2 ^ 31) :
    ∃ size data, b'.finishedData m = .ok (size ++ data) ∧ size.length = 4 ∧ size = leBytes 4 data.length ∧
      Table.getSizePrefixedRoot m (size ++ data) = .ok ⟨size ++ data, 4 + (data.length - root.val)⟩ ∧
      Table.getRoot m data = .ok ⟨data, data.length - root.val⟩ := by
  obtain ⟨a, ra⟩ := hb.toR
  obtain ⟨a₁, a', k1, k2, k3, _, k5, k6, k7, k8, k9, _⟩ := h.toA hb ra (by omega)
  have hl := k2.len
  rw [ra.used] at hr
  obtain ⟨g1, g2⟩ := finish_root k6 k5 h.ident4 (by omega) (by omega)
  obtain ⟨g3, g4, g5, y, g6⟩ := g2 rfl
  have hd : (a'.data.drop 4).length = a'.data.length - 4 := by simp
  have hge : a₁.data.length ≤ (a'.data.drop 4).length := by rw [g6]; simp
  refine ⟨a'.data.take 4, a'.data.drop 4, ?_, by simp; omega, by rw [hd]; exact g4, ?_, g3⟩
  · rw [List.take_append_drop]; exact k9
  · rw [List.take_append_drop, hd]
    simp only [if_true] at g1
    rw [g1]
    congr 2
    omega

/-- **C24** (reading) A table built, then finished size prefixed: both roots read every stored scalar and every
default alike. -/
theorem C24_reads_agree (m : Mode) (b b₁ b₂ : Builder) (body rest : List Op) (obj : Fin (2 ^ 32))
    (ident : Option Bytes) (hi : Idle m b) (h : BuildsTable m b body obj.val b₁)
    (hf : Finishes m b₁ rest obj ident true b₂) (hs : b₂.usedSpace < 2 ^ 31) (s : Nat) (hev : s % 2 = 0) (h4 : 4 ≤ s)
    (t : STy) (hty : ∀ f ∈ body.filterMap Op.stored, f.slot = s → f.p = .sc t) (dflt : Option (SVal t)) :
    ∃ data r r', b₂.finishedData m = .ok data ∧ Table.getSizePrefixedRoot m data = .ok r ∧
      Table.getRoot m (data.drop 4) = .ok r' ∧ r.get m (.scalar t) s dflt = r'.get m (.scalar t) s dflt ∧
      ∀ e, r.get m (.scalar t) s dflt ≠ .err e := by
  have hb := (h.idle hi).reachable
  obtain ⟨_, ra⟩ := hb.toR
  obtain ⟨a₁, a', k1, k2, k3, _, k5, k6, k7, k8, k9, k10⟩ := hf.toA hb ra (by omega)
  have l2 := k2.len
  have l3 := k3.len
  obtain ⟨a0, a₁', q1, q2, q3, q4, q5, q6, q7, q8, _⟩ := h.toA hi (by rw [ra.used]; omega)
  obtain ⟨a₂', a'', k1, k2, k3, _, k5, k6, k7, k8, k9, k10⟩ := hf.toA hb q2 (by omega)
  have hl := k2.len
  obtain ⟨g1, g2⟩ := finish_root k6 k5 hf.ident4 (by omega) (by omega)
  obtain ⟨g3, g4, g5, y, g6⟩ := g2 rfl
  simp only [if_true] at g1
  have ht2 := q4.ext k2
  have htA := ht2.ext k3
  have htB := ht2.prepend y
  rw [← g6] at htB
  have hlA : a''.data.length < 2 ^ 31 := by omega
  have hlB : (a''.data.drop 4).length < 2 ^ 31 := by simp; omega
  refine ⟨a''.data, _, _, k9, g1, g3, ?_⟩
  by_cases hm : ∃ f ∈ body.filterMap Op.stored, f.slot = s
  · obtain ⟨⟨s', p, x⟩, hx, hfs⟩ := hm
    have hp := hty _ hx hfs
    simp only at hfs hp
    subst hfs hp
    rw [htA.get_scalar hlA hx dflt, htB.get_scalar hlB hx dflt]
    exact ⟨rfl, nofun⟩
  · have hn : s ∉ (body.filterMap Op.stored).map Fld.slot := by
      intro hm'
      obtain ⟨f, hf, hfs⟩ := List.mem_map.mp hm'
      exact hm ⟨f, hf, hfs⟩
    rw [htA.get_absent hlA hev h4 hn (.scalar t) dflt, htB.get_absent hlB hev h4 hn (.scalar t) dflt]
    exact ⟨rfl, nofun⟩

/-! ### Concrete cases meeting the hypotheses -/

theorem step_finish_none {m : Mode} {b b' : Builder} {r : Option Nat} {root : Fin (2 ^ 32)} {ident : Option Bytes}
    {sp : Bool} (e : step m b (.finish root ident sp) = .ok (r, b')) :
    step m b (.finish root ident sp) = .ok (none, b') := by
  have : r = none := by
    simp only [step, noRet] at e
    obtain ⟨_, _, e⟩ := Res.bind_eq_ok.mp e
    cases e; rfl
  subst this; exact e

/-- C13: an odd byte, then a `u32`, then a `u64` vector, then `finish_size_prefixed`: everything is reached. -/
example (m : Mode) : ∃ b b₁ b₂, Reachable m b ∧ step m b (.push (.sc .u32) (u32c 5)) = .ok (some 8, b₁) ∧
    Finishes m b₁ [.createVector (.sc .u16) [u16c 1, u16c 2, u16c 3]] 8 (some [65, 66, 67, 68]) true b₂ ∧
    b₂.usedSpace < 2 ^ 32 := by
  have h : (fromNew m 128 ([.push (.sc .u8) (u8c 1)] ++ ([.push (.sc .u32) (u32c 5)] ++
      ([.createVector (.sc .u16) [u16c 1, u16c 2, u16c 3]] ++ [.finish 8 (some [65, 66, 67, 68]) true])))).okAnd
      (fun r => decide (r.2.usedSpace < 2 ^ 32) && decide (r.1[1]? = some (some 8))) = true := by
    cases m <;> decide
  obtain ⟨b0, r, b₂, h0, h1, h2⟩ := fromNew_ex h
  obtain ⟨r1, b, r2, e1, e2, er⟩ := run_append.mp h1
  obtain ⟨r3, b₁, r4, e3, e4, er'⟩ := run_append.mp e2
  obtain ⟨r5, b₃, r6, e5, e6, _⟩ := run_append.mp e4
  obtain ⟨o, e7, ho⟩ := run_singleton.mp e3
  obtain ⟨o1, _, ho1⟩ := run_singleton.mp e1
  obtain ⟨_, e8, _⟩ := run_singleton.mp e6
  simp only [Bool.and_eq_true, decide_eq_true_eq] at h2
  subst ho1 ho er' er
  have : o = some 8 := by simpa using h2.2
  subst this
  exact ⟨b, b₁, b₂, ⟨128, b0, _, _, h0, e1⟩, e7, ⟨⟨b₃, r5, e5, step_finish_none e8⟩, by decide, by rintro _ ⟨⟩; rfl⟩, h2.1⟩

/-- C23, C24: a string is the root. -/
example (m : Mode) (sp : Bool) : ∃ b b₁ b₂, Reachable m b ∧ step m b (.createString "hi") = .ok (some 8, b₁) ∧
    Finishes m b₁ [.push (.sc .u8) (u8c 1)] 8 (some [65, 66, 67, 68]) sp b₂ ∧ b₂.usedSpace < 2 ^ 31 ∧
    8 ≤ b₁.usedSpace := by
  have h : (fromNew m 128 ([] ++ ([.createString "hi"] ++
      ([.push (.sc .u8) (u8c 1)] ++ [.finish 8 (some [65, 66, 67, 68]) sp])))).okAnd
      (fun r => decide (r.2.usedSpace < 2 ^ 31) && decide (r.1[0]? = some (some 8))) = true := by
    cases m <;> cases sp <;> decide
  obtain ⟨b0, r, b₂, h0, h1, h2⟩ := fromNew_ex h
  obtain ⟨r1, b, r2, e1, e2, er⟩ := run_append.mp h1
  obtain ⟨r3, b₁, r4, e3, e4, er'⟩ := run_append.mp e2
  obtain ⟨r5, b₃, r6, e5, e6, _⟩ := run_append.mp e4
  obtain ⟨o, e7, ho⟩ := run_singleton.mp e3
  obtain ⟨_, e8, _⟩ := run_singleton.mp e6
  simp only [Bool.and_eq_true, decide_eq_true_eq] at h2
  have hr1 : r1 = [] := by unfold run at e1; cases e1; rfl
  subst hr1 ho er' er
  have : o = some 8 := by simpa using h2.2
  subst this
  have hle : 8 ≤ b₁.usedSpace := by
    obtain ⟨a, ra⟩ := Reachable.toR (m := m) (b := b) ⟨128, b0, _, _, h0, e1⟩
    obtain ⟨a₁, f, ra1⟩ := ra.step e7
    obtain ⟨a₃, f3, ra3⟩ := run_fwd _ ra1 e5
    obtain ⟨a₄, f4, ra4⟩ := ra3.step e8
    have hx1 := runA_ext f3 (by decide)
    have hx2 := stepA_ext f4 rfl
    have h4 := ra4.used
    simp only at hx1 hx2
    have l2 := (hx2 (by omega)).len
    have l1 := (hx1 (by omega)).len
    simp only [stepA] at f
    have f1 := withRetA_some f
    obtain ⟨k1, _⟩ := createString_spec f1 (by omega)
    rw [ra1.used]; omega
  exact ⟨b, b₁, b₂, ⟨128, b0, _, _, h0, e1⟩, e7, ⟨⟨b₃, r5, e5, step_finish_none e8⟩, by decide, by rintro _ ⟨⟩; rfl⟩, h2.1, hle⟩

end Butte
