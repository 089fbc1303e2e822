import Verif.Rt.TableBuild
/-
Layout of strings and vectors, and reading them back.
-/
namespace Butte

theorem padding_zero {n a : Nat} (hn : n < 2 ^ 64) (ha : ∃ k, k < 64 ∧ a = 2 ^ k) (h : n % a = 0) :
    paddingBytes n a = 0 := by
  obtain ⟨k, hk, rfl⟩ := ha
  rw [paddingBytes_pow2 n k hn hk, h]
  simp

theorem pow2_4 : ∃ k, k < 64 ∧ 4 = 2 ^ k := ⟨2, by decide, rfl⟩

theorem PTy.size_p2 (p : PTy) : ∃ k, k < 64 ∧ p.size = 2 ^ k := by
  obtain ⟨k, hk, e⟩ := p.size_pow2
  exact ⟨k, by omega, e⟩

theorem PTy.max4 (p : PTy) : (∃ k, k < 64 ∧ max p.size 4 = 2 ^ k) ∧ p.size ∣ max p.size 4 ∧ 4 ∣ max p.size 4 ∧
    max p.size 4 ≤ 8 := by
  obtain ⟨k, hk, e⟩ := p.size_pow2
  rw [e]
  rcases (by omega : k = 0 ∨ k = 1 ∨ k = 2 ∨ k = 3) with rfl | rfl | rfl | rfl
  · exact ⟨⟨2, by decide, rfl⟩, by decide, by decide, by decide⟩
  · exact ⟨⟨2, by decide, rfl⟩, by decide, by decide, by decide⟩
  · exact ⟨⟨2, by decide, rfl⟩, by decide, by decide, by decide⟩
  · exact ⟨⟨3, by decide, rfl⟩, by decide, by decide, by decide⟩

/-- A push at an already aligned place adds no padding. -/
theorem push_aligned {m : Mode} {a : ABuilder} {p : PTy} {x : PVal p}
    (hal : (a.data.length + p.size) % p.size = 0) (hs : a.data.length + p.size < 2 ^ 64) :
    a.push m x = (do
      let bs ← x.pushBytes m a.data.length
      return ((bs ++ a.data).length % 2 ^ 32,
        { a with data := bs ++ a.data, minAlign := max a.minAlign p.size })) := by
  unfold ABuilder.push ABuilder.align
  simp only
  rw [addU_ok hs]
  simp only [Res.ok_bind, PTy.align]
  rw [padding_zero hs p.size_p2 hal]
  rfl

/-! ### Strings -/

/-- A string (or byte string) object: length prefix, bytes, terminator. -/
def strObj (bs : Bytes) : Bytes := leBytes 4 bs.length ++ (bs ++ [0])

theorem createByteString_spec {m : Mode} {a a' : ABuilder} {bs : Bytes} {o : Nat}
    (h : a.createByteString m bs = .ok (o, a')) (hs : a'.data.length < 2 ^ 32) :
    o = a'.data.length ∧ o % 4 = 0 ∧
    a' = { a with minAlign := max a.minAlign 4,
                  data := strObj bs ++ (List.replicate (paddingBytes (a.data.length + (bs.length + 1)) 4) 0 ++ a.data) } := by
  have hext := (createByteString_ext h).len
  unfold ABuilder.createByteString at h
  obtain ⟨_, _, h⟩ := Res.bind_eq_ok.mp h
  obtain ⟨n, hn, h⟩ := Res.bind_eq_ok.mp h
  obtain ⟨a1, h1, h⟩ := Res.bind_eq_ok.mp h
  obtain ⟨⟨o2, a2⟩, h2, h⟩ := Res.bind_eq_ok.mp h
  have hl3 := push_len_le h
  have hl2 := push_len_le h2
  have hl1 := (align_ext h1).len
  simp only [ABuilder.prepend, List.length_append] at hl3
  have hsz8 : (PTy.sc STy.u8).size = 1 := rfl
  have hsz32 : (PTy.sc STy.u32).size = 4 := rfl
  rw [hsz8] at hl2; rw [hsz32] at hl3
  simp only at hext
  rw [addU_ok (by omega)] at hn
  cases hn
  have e1 := align_spec h1 (by omega)
  have hmod := padding_dvd (n := a.data.length + (bs.length + 1)) (by omega) pow2_4
  generalize hpad : paddingBytes (a.data.length + (bs.length + 1)) 4 = pad at *
  have hl : a1.data.length = pad + a.data.length := by rw [e1]; simp
  rw [push_aligned (by rw [hsz8]; omega) (by rw [hsz8]; omega)] at h2
  simp only [PVal.pushBytes, Res.ok_bind, hsz8] at h2
  cases h2
  have hz : SVal.bytes (t := .u8) (PVal.sc (t := .u8) (0 : Fin 256)) = [0] := rfl
  simp only [hz, ABuilder.prepend, List.length_append, List.length_cons, List.length_nil] at h hl3
  rw [push_aligned (by simp [hsz32]; omega) (by simp [hsz32]; omega)] at h
  simp only [PVal.pushBytes, Res.ok_bind, hsz32] at h
  have hb : SVal.bytes (t := .u32) (PVal.sc (u32v bs.length)) = leBytes 4 bs.length := by
    unfold SVal.bytes PVal.sc
    rw [u32v_val, Nat.mod_eq_of_lt (by omega)]; rfl
  rw [hb] at h
  cases h
  simp only [List.length_append, leBytes_length, List.length_cons, List.length_nil] at hs ⊢
  refine ⟨Nat.mod_eq_of_lt hs, ?_, ?_⟩
  · rw [Nat.mod_eq_of_lt hs]; omega
  · rw [e1]
    simp only [strObj]
    congr 1
    · simp
    · omega

theorem At.str {m : Mode} {d bs : Bytes} {o : Nat} (h : At d o (strObj bs)) (hl : d.length < 2 ^ 32) :
    followStr m d (d.length - o) =
      match String.fromUTF8? (ByteArray.mk bs.toArray) with
      | some s => .ok s
      | none => .err .nonUtf8String := by
  have hi : isizeMax = 2 ^ 63 - 1 := rfl
  have hle := h.le
  have hlen := h.len_le
  unfold strObj at h hlen
  simp only [List.length_append, leBytes_length, List.length_cons, List.length_nil] at hlen
  unfold followStr
  have h1 : At d o (leBytes 4 bs.length) := by
    have : At d o ([] ++ (leBytes 4 bs.length ++ (bs ++ [0]))) := h
    have := this.sub
    simpa using this
  have hc : bs.length < STy.card .u32 := by
    have : STy.card .u32 = 2 ^ 32 := rfl
    omega
  have hr : readNatAt m .u32 d (d.length - o) = .ok bs.length := At.read_nat (t := .u32) hc h1 (by omega)
  rw [hr]
  simp only [Res.ok_bind]
  rw [addU_ok (by omega)]
  simp only [Res.ok_bind]
  rw [addU_ok (by omega)]
  simp only [Res.ok_bind]
  rw [if_neg (by omega)]
  have hb : At d (o - 4) bs := by
    have := h.sub
    rwa [leBytes_length] at this
  have hz : At d (o - 4 - bs.length) [0] := by
    have h' : At d o ((leBytes 4 bs.length ++ bs) ++ ([0] ++ [])) := by simpa using h
    have := h'.sub
    rw [List.length_append, leBytes_length, ← Nat.sub_sub] at this
    exact this
  have hget : d[d.length - o + 4 + bs.length]? = some 0 := by
    obtain ⟨pre, post, rfl, hrv⟩ := hz
    have : (pre ++ ([0] ++ post)).length - o + 4 + bs.length = pre.length := by
      simp at hrv hle ⊢; omega
    rw [this]
    simp
  rw [hget]
  simp only [Res.ok_bind, ne_eq, not_true_eq_false, if_false]
  have hsl := hb.slice_get
  rw [show d.length - (o - 4) = d.length - o + 4 by omega] at hsl
  unfold sliceIdx
  rw [hsl]
  rfl

theorem fromUTF8?_strBytes (s : String) :
    String.fromUTF8? (ByteArray.mk (Builder.strBytes s).toArray) = some s := by
  have : ByteArray.mk (Builder.strBytes s).toArray = s.toByteArray := by
    unfold Builder.strBytes; simp
  rw [this]
  unfold String.fromUTF8?
  rw [dif_pos s.isValidUTF8]
  rfl

theorem At.string {m : Mode} {d : Bytes} {o : Nat} {s : String} (h : At d o (strObj (Builder.strBytes s)))
    (hl : d.length < 2 ^ 32) : followStr m d (d.length - o) = .ok s := by
  rw [h.str hl, fromUTF8?_strBytes]

theorem createString_spec {m : Mode} {a a' : ABuilder} {s : String} {o : Nat}
    (h : a.createString m s = .ok (o, a')) (hs : a'.data.length < 2 ^ 32) :
    o = a'.data.length ∧ o % 4 = 0 ∧ At a'.data o (strObj (Builder.strBytes s)) ∧
    a' = { a with minAlign := max a.minAlign 4, data := a'.data } := by
  unfold ABuilder.createString at h
  obtain ⟨_, _, h⟩ := Res.bind_eq_ok.mp h
  obtain ⟨h1, h2, h3⟩ := createByteString_spec h hs
  refine ⟨h1, h2, ?_, ?_⟩
  · rw [h1]
    conv => congr
            · rw [h3]
            · rw [h3]
            · skip
    exact At.head _ _
  · conv => lhs; rw [h3]
    conv => rhs; rw [h3]

/-! ### Vectors -/

theorem pushAll_len {m : Mode} {p : PTy} : ∀ {xs : List (PVal p)} {a a' : ABuilder},
    a.pushAll m xs = .ok a' → a.data.length + p.size * xs.length ≤ a'.data.length
  | [], a, a', h => by cases h; simp
  | x :: xs, a, a', h => by
    unfold ABuilder.pushAll at h
    obtain ⟨⟨o, a1⟩, h1, h⟩ := Res.bind_eq_ok.mp h
    have := push_len_le h1
    have := pushAll_len h
    simp only [List.length_cons, Nat.mul_add, Nat.mul_one] at *
    omega

/-- Pushing aligned items one after the other. -/
theorem pushAll_spec {m : Mode} {p : PTy} : ∀ {xs : List (PVal p)} {a a' : ABuilder},
    a.pushAll m xs = .ok a' → a.data.length % p.size = 0 → a'.data.length < 2 ^ 32 →
    a'.data.length = a.data.length + p.size * xs.length ∧
    (∀ i (hi : i < xs.length), PAt m a'.data (a.data.length + p.size * (i + 1)) xs[i]) ∧ Ext a a' ∧
    a' = { a with minAlign := if xs = [] then a.minAlign else max a.minAlign p.size, data := a'.data }
  | [], a, a', h, _, _ => by cases h; simp [Ext.refl]
  | x :: xs, a, a', h, hal, hs => by
    unfold ABuilder.pushAll at h
    obtain ⟨⟨o, a1⟩, h1, h⟩ := Res.bind_eq_ok.mp h
    have hl1 := push_len_le h1
    have hl2 := pushAll_len h
    simp only at h hl2
    have hmod : (a.data.length + p.size) % p.size = 0 := by simp [hal]
    obtain ⟨k1, k2, k3, k4, _, k5, k6, k7, k8, k9⟩ := push_pat h1 (by omega)
    rw [push_aligned hmod (by omega)] at h1
    obtain ⟨bs, hb, h1⟩ := Res.bind_eq_ok.mp h1
    have hbl := PVal.pushBytes_length hb
    have hl1' : a1.data.length = a.data.length + p.size := by
      simp only [Res.pure_eq, Res.ok.injEq, Prod.mk.injEq] at h1
      rw [← h1.2]; simp [hbl]; omega
    obtain ⟨e1, e2, e3, e4⟩ := pushAll_spec h (by rw [hl1']; exact hmod) hs
    refine ⟨?_, ?_, k4.trans e3, ?_⟩
    · rw [e1, hl1', List.length_cons, Nat.mul_add]; omega
    · intro i hi
      cases i with
      | zero =>
        rw [k1, hl1'] at k2
        have := k2.ext e3
        simpa using this
      | succ i =>
        have := e2 i (by simpa using hi)
        rw [hl1'] at this
        rw [show a.data.length + p.size * (i + 1 + 1) = a.data.length + p.size + p.size * (i + 1) by
          rw [Nat.mul_add p.size (i + 1) 1]; omega]
        simpa using this
    · rw [e4]
      simp only [k5, k6, k7, k8, k9]
      simp

/-- Bytes of a `u32` length. -/
theorem u32v_bytes {n : Nat} (h : n < 2 ^ 32) : SVal.bytes (t := .u32) (PVal.sc (u32v n)) = leBytes 4 n := by
  unfold SVal.bytes PVal.sc
  rw [u32v_val, Nat.mod_eq_of_lt h]; rfl

/-- A vector object of `items` at end-relative position `o`. -/
def VecAt (m : Mode) (d : Bytes) (o : Nat) {p : PTy} (items : List (PVal p)) : Prop :=
  At d o (leBytes 4 items.length) ∧ 4 + p.size * items.length ≤ o ∧
  ∀ i (hi : i < items.length), PAt m d (o - 4 - p.size * i) items[i]

theorem VecAt.prepend {m : Mode} {d : Bytes} {o : Nat} {p : PTy} {items : List (PVal p)}
    (h : VecAt m d o items) (y : Bytes) : VecAt m (y ++ d) o items :=
  ⟨h.1.prepend y, h.2.1, fun i hi => (h.2.2 i hi).prepend y⟩

theorem VecAt.ext {m : Mode} {a a' : ABuilder} {o : Nat} {p : PTy} {items : List (PVal p)}
    (h : VecAt m a.data o items) (he : Ext a a') : VecAt m a'.data o items := by
  obtain ⟨y, hy⟩ := he
  rw [hy]; exact h.prepend y

theorem createVector_spec {m : Mode} {a a' : ABuilder} {p : PTy} {items : List (PVal p)} {o : Nat}
    (h : a.createVector m items = .ok (o, a')) (hs : a'.data.length < 2 ^ 32) :
    o = a'.data.length ∧ o % 4 = 0 ∧ (o - 4) % p.size = 0 ∧ VecAt m a'.data o items ∧ Ext a a' ∧
    a.data.length + 4 + p.size * items.length ≤ o ∧
    a' = { a with minAlign := max a.minAlign (max p.size 4), data := a'.data } := by
  have hx := createVector_ext h
  unfold ABuilder.createVector at h
  obtain ⟨n, hn, h⟩ := Res.bind_eq_ok.mp h
  obtain ⟨a1, h1, h⟩ := Res.bind_eq_ok.mp h
  obtain ⟨a2, h2, h3⟩ := Res.bind_eq_ok.mp h
  have hsz32 : (PTy.sc STy.u32).size = 4 := rfl
  have hl3 := push_len_le h3
  have hl2 := pushAll_len h2
  have hl1 := (align_ext h1).len
  rw [hsz32] at hl3
  simp only [List.length_reverse, Nat.mul_comm p.size] at hl2
  rw [mulU_ok (by omega)] at hn
  injection hn with hn
  subst hn
  have e1 := align_spec h1 (by omega)
  obtain ⟨hp2, hd1, hd4, hle8⟩ := p.max4
  have hmod := padding_dvd (n := a.data.length + items.length * p.size) (by omega) hp2
  simp only [PTy.align] at e1
  generalize hpad : paddingBytes (a.data.length + items.length * p.size) (max p.size 4) = pad at *
  have hl : a1.data.length = pad + a.data.length := by rw [e1]; simp
  have hm1 : (a1.data.length + items.length * p.size) % max p.size 4 = 0 := by rw [hl, ← hmod]; congr 1; omega
  have hmp : (a1.data.length + items.length * p.size) % p.size = 0 :=
    Nat.mod_eq_zero_of_dvd (Nat.dvd_trans hd1 (Nat.dvd_of_mod_eq_zero hm1))
  have hm4 : (a1.data.length + items.length * p.size) % 4 = 0 :=
    Nat.mod_eq_zero_of_dvd (Nat.dvd_trans hd4 (Nat.dvd_of_mod_eq_zero hm1))
  have hmp' : a1.data.length % p.size = 0 := by
    rw [Nat.add_mul_mod_self_right] at hmp; exact hmp
  obtain ⟨f1, f2, f3, f4⟩ := pushAll_spec h2 hmp' (by omega)
  simp only [List.length_reverse] at f1 f2
  rw [Nat.mul_comm p.size] at f1
  obtain ⟨k1, k2, k3, k4, k4', k5, k6, k7, k8, k9⟩ := push_pat h3 hs
  rw [push_aligned (by rw [hsz32, f1]; omega) (by omega)] at h3
  simp only [PVal.pushBytes, Res.ok_bind, hsz32] at h3
  rw [u32v_bytes (by
    have := p.size_pos
    have : items.length * 1 ≤ items.length * p.size := Nat.mul_le_mul_left _ this
    omega)] at h3
  have ho : o = a1.data.length + items.length * p.size + 4 := by
    rw [k1]; cases h3; simp [f1]; omega
  refine ⟨k1, by omega, ?_, ⟨?_, ?_, ?_⟩, hx, ?_, ?_⟩
  · rw [ho, Nat.add_sub_cancel]; exact hmp
  · rw [k1]; cases h3; exact At.head _ _
  · rw [ho, Nat.mul_comm]; omega
  · intro i hi
    have := f2 (items.length - 1 - i) (by omega)
    rw [List.getElem_reverse] at this
    simp only [show items.length - 1 - (items.length - 1 - i) = i by omega] at this
    have e : o - 4 - p.size * i = a1.data.length + p.size * (items.length - 1 - i + 1) := by
      rw [ho, show items.length - 1 - i + 1 = items.length - i by omega, Nat.mul_sub, Nat.mul_comm items.length]
      have : p.size * i ≤ p.size * items.length := Nat.mul_le_mul_left _ (by omega)
      omega
    rw [e]
    exact this.ext k4
  · rw [ho, Nat.mul_comm p.size]; omega
  · have e9 : a'.minAlign = max a.minAlign (max p.size 4) := by
      rw [k9, hsz32]
      have : a2.minAlign = max a.minAlign (max p.size 4) := by
        rw [f4]; simp only
        split
        · rw [e1]
        · rw [e1]; simp only; omega
      omega
    have q1 : a'.fieldLocs = a.fieldLocs := by rw [k5, f4, e1]
    have q2 : a'.vtables = a.vtables := by rw [k6, f4, e1]
    have q3 : a'.nested = a.nested := by rw [k7, f4, e1]
    have q4 : a'.finished = a.finished := by rw [k8, f4, e1]
    cases a'
    simp only at q1 q2 q3 q4 e9
    rw [q1, q2, q3, q4, e9]

theorem VecAt.len {m : Mode} {d : Bytes} {o : Nat} {p : PTy} {items : List (PVal p)}
    (h : VecAt m d o items) (hl : d.length < 2 ^ 32) (e : FTy) :
    Vec.len m (⟨d, d.length - o⟩ : Vec e) = .ok items.length := by
  have hi : isizeMax = 2 ^ 63 - 1 := rfl
  have hle := h.1.le
  have h2 := h.2.1
  have := p.size_pos
  have h3 : 1 * items.length ≤ p.size * items.length := Nat.mul_le_mul_right _ this
  have hc : items.length < STy.card .u32 := by
    have : STy.card .u32 = 2 ^ 32 := rfl
    omega
  exact At.read_nat (t := .u32) hc h.1 (by simp only; omega)

theorem VecAt.get {m : Mode} {d : Bytes} {o : Nat} {p : PTy} {items : List (PVal p)}
    (h : VecAt m d o items) (hl : d.length < 2 ^ 32) (e : FTy) (he : e.size = p.size) {i : Nat}
    (hi : i < items.length) :
    Vec.get m (⟨d, d.length - o⟩ : Vec e) i = e.follow m d (d.length - (o - 4 - p.size * i)) := by
  have hlen := h.len (m := m) hl e
  have hle := h.1.le
  have h2 := h.2.1
  have hpos := p.size_pos
  have h4 : p.size * (i + 1) ≤ p.size * items.length := Nat.mul_le_mul_left _ (by omega)
  rw [Nat.mul_add, Nat.mul_one] at h4
  unfold Vec.len at hlen
  unfold Vec.get
  simp only
  rw [hlen]
  have hd : debugAssert m (decide (0 < e.size)) = .ok () := by
    unfold debugAssert; rw [if_neg]; simp; omega
  have hd2 : debugAssert m (decide (i < items.length)) = .ok () := by
    unfold debugAssert; rw [if_neg]; simp; omega
  have hrest : (do
      debugAssert m (decide (0 < e.size))
      let a ← addU m (d.length - o) 4
      let b ← mulU m e.size i
      let l ← addU m a b
      e.follow m d l) = e.follow m d (d.length - (o - 4 - p.size * i)) := by
    rw [hd]
    simp only [Res.ok_bind]
    rw [addU_ok (by omega), he]
    simp only [Res.ok_bind]
    rw [mulU_ok (by omega)]
    simp only [Res.ok_bind]
    rw [addU_ok (by omega)]
    simp only [Res.ok_bind]
    congr 1; omega
  split
  · simp only [Res.ok_bind, hd2]
    exact hrest
  · exact hrest

/-- Slice access of a scalar vector. -/
theorem VecAt.slice {m : Mode} {d : Bytes} {o : Nat} {t : STy} {items : List (PVal (.sc t))}
    (h : VecAt m d o items) (hl : d.length < 2 ^ 32) :
    followSlice m t d (d.length - o) = .ok items := by
  have hi : isizeMax = 2 ^ 63 - 1 := rfl
  have hlen := h.len (m := m) hl (.scalar t)
  unfold Vec.len at hlen
  simp only at hlen
  have hle := h.1.le
  have h2 := h.2.1
  have hsz : (PTy.sc t).size = t.size := rfl
  rw [hsz] at h2
  have hpos := t.size_pos
  unfold followSlice
  have hd : debugAssert m (decide (0 < t.size)) = .ok () := by
    unfold debugAssert; rw [if_neg]; simp [hpos]
  have hcomm := Nat.mul_comm t.size items.length
  rw [hd]
  simp only [Res.ok_bind]
  rw [hlen]
  simp only [Res.ok_bind]
  rw [addU_ok (by omega)]
  simp only [Res.ok_bind]
  rw [mulU_ok (by omega)]
  simp only [Res.ok_bind]
  rw [addU_ok (by omega)]
  simp only [Res.ok_bind]
  have hsg : sliceGet d (d.length - o + 4) (d.length - o + 4 + items.length * t.size) =
      .ok ((d.drop (d.length - o + 4)).take (items.length * t.size)) := by
    unfold sliceGet
    rw [if_pos (by omega)]
    congr 2; omega
  rw [hsg]
  simp only [Res.ok_bind, Res.pure_eq]
  congr 1
  -- element by element
  have key : ∀ (n k : Nat), k + n = items.length →
      castSlice t n ((d.drop (d.length - o + 4 + t.size * k)).take (n * t.size)) = items.drop k := by
    intro n
    induction n with
    | zero =>
      intro k hk
      simp only [castSlice]
      rw [List.drop_of_length_le (by omega)]
      rfl
    | succ n ih =>
      intro k hk
      have hk' : k < items.length := by omega
      simp only [castSlice]
      have hmul : t.size * (k + 1) ≤ t.size * items.length := Nat.mul_le_mul_left _ (by omega)
      rw [Nat.mul_add, Nat.mul_one] at hmul
      have hp := h.2.2 k hk'
      obtain ⟨_, bs, hb, hat⟩ := hp
      simp only [PVal.pushBytes] at hb
      cases hb
      rw [hsz] at hat
      have hsl := hat.slice_get
      unfold sliceGet at hsl
      have hvl : (SVal.bytes (t := t) items[k]).length = t.size := SVal.bytes_length (t := t) _
      rw [hvl, if_pos (by omega)] at hsl
      injection hsl with hsl
      rw [show d.length - (o - 4 - t.size * k) = d.length - o + 4 + t.size * k by omega,
        Nat.add_sub_cancel_left] at hsl
      rw [List.take_take, Nat.add_mul, Nat.one_mul, Nat.min_eq_left (by omega), hsl]
      have hob : SVal.ofBytes t (SVal.bytes (t := t) items[k]) = items[k] := SVal.ofBytes_bytes (t := t) _
      rw [hob]
      rw [List.drop_take, List.drop_drop, Nat.add_sub_cancel]
      rw [List.drop_eq_getElem_cons hk']
      congr 1
      have := ih (k + 1) (by omega)
      rw [Nat.mul_add, Nat.mul_one, ← Nat.add_assoc] at this
      exact this
  have := key items.length 0 (by omega)
  simpa using this

/-! ### Vectors of strings -/

theorem createStrings_spec {m : Mode} : ∀ {xs : List String} {a a' : ABuilder} {acc offs : List (PVal .off)},
    a.createStrings m xs acc = .ok (offs, a') → a'.data.length < 2 ^ 32 →
    ∃ new : List (PVal .off), offs = new.reverse ++ acc ∧ Ext a a' ∧ a'.nested = a.nested ∧
      List.Forall₂ (fun (s : String) (v : PVal .off) => At a'.data v.val (strObj (Builder.strBytes s)) ∧
        v.val ≤ a'.data.length ∧ v.val % 4 = 0) xs new
  | [], a, a', acc, offs, h, _ => by
    cases h; exact ⟨[], rfl, Ext.refl _, rfl, List.Forall₂.nil⟩
  | s :: xs, a, a', acc, offs, h, hs => by
    unfold ABuilder.createStrings at h
    obtain ⟨⟨o, a1⟩, h1, h⟩ := Res.bind_eq_ok.mp h
    have hl := (createStrings_ext h).len
    simp only at hl h
    obtain ⟨new, e1, e2, e3, e4⟩ := createStrings_spec h hs
    obtain ⟨k1, k2, k3, k4⟩ := createString_spec h1 (by omega)
    have hv : (Builder.offVal o).val = o := by
      unfold Builder.offVal
      simp only [Fin.ofNat]
      exact Nat.mod_eq_of_lt (by omega)
    refine ⟨Builder.offVal o :: new, by simp [e1], (createString_ext h1).trans e2, ?_, ?_⟩
    · rw [e3, k4]
    · refine List.Forall₂.cons ⟨?_, ?_, ?_⟩ e4
      · rw [hv]; exact k3.ext e2
      · rw [hv]; omega
      · rw [hv]; exact k2

end Butte
