import Verif.Rt.RefineVT
/-
Layout lemmas about the abstract builder: padding, shape of the data after each call, bytes at an
end-relative position.
-/
namespace Butte
open ABuilder (Big)

/-! ### Padding -/

theorem paddingBytes_pow2 (n k : Nat) (hn : n < 2 ^ 64) (hk : k < 64) :
    paddingBytes n (2 ^ k) = (2 ^ k - n % 2 ^ k) % 2 ^ k := by
  have h2k : 2 ^ k ≤ 2 ^ 63 := Nat.pow_le_pow_right (by decide) (by omega)
  have hpos : 0 < 2 ^ k := Nat.pow_pos (by decide)
  have hdvd : 2 ^ k ∣ 2 ^ 64 := Nat.pow_dvd_pow 2 (by omega)
  unfold paddingBytes
  rw [BitVec.toNat_and]
  have e1 : (BitVec.ofNat 64 (2 ^ k) - 1#64).toNat = 2 ^ k - 1 := by
    rw [BitVec.toNat_sub]
    simp only [BitVec.toNat_ofNat]
    rw [Nat.mod_eq_of_lt (a := 2 ^ k) (by omega)]
    have : 2 ^ 64 - 1 % 2 ^ 64 + 2 ^ k = 2 ^ 64 + (2 ^ k - 1) := by omega
    rw [this, Nat.add_mod_left, Nat.mod_eq_of_lt (by omega)]
  have e2 : (~~~ (BitVec.ofNat 64 n) + 1#64).toNat = (2 ^ 64 - n) % 2 ^ 64 := by
    rw [← BitVec.neg_eq_not_add, BitVec.toNat_neg, BitVec.toNat_ofNat, Nat.mod_eq_of_lt hn]
  rw [e1, e2, Nat.and_two_pow_sub_one_eq_mod, Nat.mod_mod_of_dvd _ hdvd]
  obtain ⟨q, hq⟩ := hdvd
  have hdm := Nat.div_add_mod n (2 ^ k)
  have hlt := Nat.mod_lt n hpos
  generalize n % 2 ^ k = r at *
  generalize n / 2 ^ k = d at *
  have hdq : d < q := by
    apply Nat.lt_of_mul_lt_mul_left (a := 2 ^ k)
    omega
  obtain ⟨e, rfl⟩ : ∃ e, q = d + 1 + e := ⟨q - (d + 1), by omega⟩
  have : 2 ^ 64 - n = 2 ^ k * e + (2 ^ k - r) := by
    rw [hq, ← hdm, Nat.mul_add, Nat.mul_add]; omega
  rw [this, Nat.mul_add_mod]

theorem STy.size_pow2 (t : STy) : ∃ k, k ≤ 3 ∧ t.size = 2 ^ k := by
  cases t
  case bool | u8 | i8 => exact ⟨0, by decide, rfl⟩
  case u16 | i16 => exact ⟨1, by decide, rfl⟩
  case u32 | i32 | f32 => exact ⟨2, by decide, rfl⟩
  case u64 | i64 | f64 => exact ⟨3, by decide, rfl⟩

theorem PTy.size_pow2 (p : PTy) : ∃ k, k ≤ 3 ∧ p.size = 2 ^ k := by
  cases p with
  | sc t => exact t.size_pow2
  | off => exact ⟨2, by decide, rfl⟩

theorem padding_lt {n a : Nat} (hn : n < 2 ^ 64) (ha : ∃ k, k < 64 ∧ a = 2 ^ k) : paddingBytes n a < a := by
  obtain ⟨k, hk, rfl⟩ := ha
  rw [paddingBytes_pow2 n k hn hk]
  exact Nat.mod_lt _ (Nat.pow_pos (by decide))

theorem padding_dvd {n a : Nat} (hn : n < 2 ^ 64) (ha : ∃ k, k < 64 ∧ a = 2 ^ k) :
    (n + paddingBytes n a) % a = 0 := by
  obtain ⟨k, hk, rfl⟩ := ha
  rw [paddingBytes_pow2 n k hn hk]
  have hpos : 0 < 2 ^ k := Nat.pow_pos (by decide)
  have hlt := Nat.mod_lt n hpos
  rw [Nat.add_mod, Nat.mod_mod]
  by_cases h0 : n % 2 ^ k = 0
  · simp [h0]
  · rw [Nat.mod_eq_of_lt (a := 2 ^ k - n % 2 ^ k) (by omega)]
    rw [show n % 2 ^ k + (2 ^ k - n % 2 ^ k) = 2 ^ k by omega, Nat.mod_self]

/-! ### Shape of the data -/

theorem align_spec {m : Mode} {a a' : ABuilder} {l al : Nat} (h : a.align m l al = .ok a')
    (hs : a.data.length + l < 2 ^ 64) :
    a' = { a with minAlign := max a.minAlign al,
                  data := List.replicate (paddingBytes (a.data.length + l) al) 0 ++ a.data } := by
  unfold ABuilder.align at h
  rw [addU_ok hs] at h
  cases h; rfl

theorem push_spec {m : Mode} {a a' : ABuilder} {p : PTy} {x : PVal p} {o : Nat}
    (h : a.push m x = .ok (o, a')) (hs : a.data.length + p.size < 2 ^ 64) :
    ∃ bs, x.pushBytes m (paddingBytes (a.data.length + p.size) p.size + a.data.length) = .ok bs ∧
      bs.length = p.size ∧ o = a'.data.length % 2 ^ 32 ∧
      a' = { a with minAlign := max a.minAlign p.size,
                    data := bs ++ (List.replicate (paddingBytes (a.data.length + p.size) p.size) 0 ++ a.data) } := by
  unfold ABuilder.push at h
  obtain ⟨a1, h1, h⟩ := Res.bind_eq_ok.mp h
  have h1 := align_spec h1 hs
  obtain ⟨bs, h2, h⟩ := Res.bind_eq_ok.mp h
  rw [h1] at h2
  simp only [List.length_append, List.length_replicate, PTy.align] at h2
  refine ⟨bs, h2, PVal.pushBytes_length h2, ?_⟩
  cases h
  rw [h1]
  exact ⟨rfl, rfl⟩

theorem push_len_le {m : Mode} {a a' : ABuilder} {p : PTy} {x : PVal p} {o : Nat}
    (h : a.push m x = .ok (o, a')) : a.data.length + p.size ≤ a'.data.length := by
  unfold ABuilder.push at h
  obtain ⟨a1, h1, h⟩ := Res.bind_eq_ok.mp h
  have h1 := (align_ext h1).len
  obtain ⟨bs, h2, h⟩ := Res.bind_eq_ok.mp h
  have := PVal.pushBytes_length h2
  cases h
  simp [ABuilder.prepend]; omega

/-- `d` has the bytes `bs` starting `rev` bytes before its end. -/
def At (d : Bytes) (rev : Nat) (bs : Bytes) : Prop :=
  ∃ pre post, d = pre ++ (bs ++ post) ∧ rev = bs.length + post.length

theorem At.prepend {d : Bytes} {rev : Nat} {bs : Bytes} (h : At d rev bs) (x : Bytes) : At (x ++ d) rev bs := by
  obtain ⟨pre, post, rfl, hr⟩ := h
  exact ⟨x ++ pre, post, by simp, hr⟩

theorem At.head (bs post : Bytes) : At (bs ++ post) (bs ++ post).length bs :=
  ⟨[], post, rfl, by simp⟩

theorem At.ext {a a' : ABuilder} {rev : Nat} {bs : Bytes} (h : At a.data rev bs) (he : Ext a a') :
    At a'.data rev bs := by
  obtain ⟨p, hp⟩ := he
  rw [hp]; exact h.prepend p

theorem At.le {d : Bytes} {rev : Nat} {bs : Bytes} (h : At d rev bs) : rev ≤ d.length := by
  obtain ⟨pre, post, rfl, hr⟩ := h
  simp; omega

theorem At.len_le {d : Bytes} {rev : Nat} {bs : Bytes} (h : At d rev bs) : bs.length ≤ rev := by
  obtain ⟨pre, post, rfl, hr⟩ := h
  omega

/-- Sub-range of a known range. -/
theorem At.sub {d : Bytes} {rev : Nat} {p bs q : Bytes} (h : At d rev (p ++ (bs ++ q))) :
    At d (rev - p.length) bs := by
  obtain ⟨pre, post, rfl, hr⟩ := h
  refine ⟨pre ++ p, q ++ post, by simp, ?_⟩
  simp at hr ⊢; omega

theorem At.slice_get {d : Bytes} {rev : Nat} {bs : Bytes} (h : At d rev bs) :
    sliceGet d (d.length - rev) (d.length - rev + bs.length) = .ok bs := by
  obtain ⟨pre, post, rfl, hr⟩ := h
  have : (pre ++ (bs ++ post)).length - rev = pre.length := by simp; omega
  rw [this]
  unfold sliceGet
  rw [if_pos (by simp)]
  rw [List.drop_left' rfl]
  simp

theorem At.unique {d : Bytes} {rev : Nat} {bs cs : Bytes} (h : At d rev bs) (h' : At d rev cs)
    (hl : bs.length = cs.length) : bs = cs := by
  have e1 := h.slice_get
  have e2 := h'.slice_get
  rw [hl] at e1
  rw [e1] at e2
  injection e2

theorem readScalar_bytes {t : STy} (v : SVal t) : readScalar t v.bytes = .ok v := by
  unfold readScalar
  rw [if_pos (by simp), ofBytes_take, SVal.ofBytes_bytes]

theorem At.read_scalar {m : Mode} {d : Bytes} {rev : Nat} {t : STy} {v : SVal t} (h : At d rev v.bytes)
    (hl : d.length ≤ isizeMax) : readScalarAt m t d (d.length - rev) = .ok v := by
  unfold readScalarAt
  have hi : isizeMax = 2 ^ 63 - 1 := rfl
  have := t.size_le
  rw [addU_ok (by omega)]
  simp only [Res.ok_bind]
  have h2 := h.slice_get
  rw [SVal.bytes_length] at h2
  rw [h2]
  simp only [Res.ok_bind]
  exact readScalar_bytes v

theorem At.read_nat {m : Mode} {d : Bytes} {rev : Nat} {t : STy} {n : Nat} (ht : n < t.card)
    (h : At d rev (leBytes t.size n)) (hl : d.length ≤ isizeMax) :
    readNatAt m t d (d.length - rev) = .ok n := by
  unfold readNatAt
  have := At.read_scalar (m := m) (v := (⟨n, ht⟩ : SVal t)) h hl
  rw [this]
  rfl

/-! ### Tables -/

theorem findDuplicate_some {m : Mode} {d : Bytes} {n : Nat} : ∀ {revs : List Nat},
    ABuilder.findDuplicate m d revs = .ok (some n) →
    n ∈ revs ∧ VTable.eqv m ⟨d, 0⟩ ⟨d, d.length - n⟩ = .ok true
  | [], h => by cases h
  | r :: rest, h => by
    unfold ABuilder.findDuplicate at h
    obtain ⟨same, h1, h⟩ := Res.bind_eq_ok.mp h
    cases same with
    | true => cases h; exact ⟨List.mem_cons_self .., h1⟩
    | false =>
      have := findDuplicate_some (revs := rest) (by simpa using h)
      exact ⟨List.mem_cons_of_mem _ this.1, this.2⟩

theorem findDuplicate_none {m : Mode} {d : Bytes} : ∀ {revs : List Nat},
    ABuilder.findDuplicate m d revs = .ok none →
    ∀ n ∈ revs, VTable.eqv m ⟨d, 0⟩ ⟨d, d.length - n⟩ = .ok false
  | [], _ => by simp
  | r :: rest, h => by
    unfold ABuilder.findDuplicate at h
    obtain ⟨same, h1, h⟩ := Res.bind_eq_ok.mp h
    cases same with
    | true => cases h
    | false =>
      have := findDuplicate_none (revs := rest) (by simpa using h)
      intro n hn
      rcases List.mem_cons.mp hn with rfl | hn
      · exact h1
      · exact this n hn

theorem ofSigned_lt (w : Nat) (i : Int) : ofSigned w i < 2 ^ w := by
  unfold ofSigned
  have h2 : (0 : Int) < 2 ^ w := Int.pow_pos (by decide)
  have h1 := Int.emod_lt_of_pos i h2
  have h0 := Int.emod_nonneg i (Int.ne_of_gt h2)
  have : ((2 ^ w : Nat) : Int) = 2 ^ w := by simp
  omega

theorem ofSigned_toSigned32 {n : Nat} (i : Int) : ofSigned 32 (toSigned 32 n - i) = ofSigned 32 (n - i) := by
  unfold ofSigned toSigned
  split <;> omega

theorem subS32_ofSigned {m : Mode} {x y : Nat} {d : Int}
    (h : subS 32 m (toSigned 32 x) (toSigned 32 y) = .ok d) :
    ofSigned 32 d = ofSigned 32 ((x : Int) - y) := by
  unfold subS at h
  have e : ofSigned 32 (toSigned 32 x - toSigned 32 y) = ofSigned 32 ((x : Int) - y) := by
    unfold ofSigned toSigned
    split <;> split <;> omega
  split at h
  · cases h; exact e
  · cases m
    · cases h
    · simp only [Res.ok.injEq] at h
      rw [← h, ← e]
      unfold toSigned ofSigned
      split <;> omega

/-- Patching the four bytes at `obj`. -/
theorem patch_spec {m : Mode} {pre mk post d : Bytes} {vtUse obj : Nat} (hmk : mk.length = 4)
    (ho : obj = mk.length + post.length)
    (h : ABuilder.patch m (pre ++ (mk ++ post)) vtUse obj = .ok d) :
    d = pre ++ (leBytes 4 (ofSigned 32 ((vtUse : Int) - obj)) ++ post) := by
  unfold ABuilder.patch at h
  obtain ⟨saw, h1, h⟩ := Res.bind_eq_ok.mp h
  obtain ⟨_, _, h⟩ := Res.bind_eq_ok.mp h
  obtain ⟨x, hx, h⟩ := Res.bind_eq_ok.mp h
  cases h
  rw [subS32_ofSigned hx]
  apply splice_append' <;> simp [ho, hmk]

/-- Everything `write_vtable` does, in one place (for data below 4 GiB). -/
theorem writeVTable_spec {m : Mode} {a a' : ABuilder} {tail obj : Nat}
    (h : a.writeVTable m tail = .ok (obj, a')) (hs : a'.data.length < 2 ^ 32) :
    ∃ vt vtUse post, post = List.replicate (paddingBytes (a.data.length + 4) 4) 0 ++ a.data ∧
      obj = 4 + post.length ∧
      ABuilder.vtableBytes m a.fieldLocs obj tail = .ok vt ∧
      a'.fieldLocs = [] ∧ a'.nested = a.nested ∧ a'.finished = a.finished ∧
      a'.minAlign = max a.minAlign 4 ∧
      ((vtUse ∈ a.vtables ∧ a'.vtables = a.vtables ∧
        a'.data = leBytes 4 (ofSigned 32 ((vtUse : Int) - obj)) ++ post ∧
        (∃ mk : Bytes, mk.length = 4 ∧ VTable.eqv m ⟨vt ++ (mk ++ post), 0⟩
          ⟨vt ++ (mk ++ post), (vt ++ (mk ++ post)).length - vtUse⟩ = .ok true)) ∨
       (vtUse = a'.data.length ∧ a'.vtables = a.vtables ++ [vtUse] ∧
        a'.data = vt ++ (leBytes 4 (ofSigned 32 ((vtUse : Int) - obj)) ++ post) ∧
        (∃ mk : Bytes, mk.length = 4 ∧ ∀ n ∈ a.vtables, VTable.eqv m ⟨vt ++ (mk ++ post), 0⟩
          ⟨vt ++ (mk ++ post), (vt ++ (mk ++ post)).length - n⟩ = .ok false))) := by
  have hlen0 := writeVTable_len h
  unfold ABuilder.writeVTable at h
  obtain ⟨_, _, h⟩ := Res.bind_eq_ok.mp h
  obtain ⟨⟨obj1, a1⟩, h1, h⟩ := Res.bind_eq_ok.mp h
  simp only at hlen0
  obtain ⟨bs, hbs, hbl, ho1, ha1⟩ := push_spec h1 (by
    have : (PTy.sc STy.u32).size = 4 := rfl
    omega)
  have hsz : (PTy.sc STy.u32).size = 4 := rfl
  rw [hsz] at hbs ha1 hbl
  obtain ⟨vt, h2, h⟩ := Res.bind_eq_ok.mp h
  obtain ⟨dup, h3, h⟩ := Res.bind_eq_ok.mp h
  generalize hpost : List.replicate (paddingBytes (a.data.length + 4) 4) (0 : UInt8) ++ a.data = post at *
  have hd1 : a1.data = bs ++ post := by rw [ha1]
  have hfl : a1.fieldLocs = a.fieldLocs := by rw [ha1]
  have hvt : a1.vtables = a.vtables := by rw [ha1]
  have hn : a1.nested = a.nested := by rw [ha1]
  have hf : a1.finished = a.finished := by rw [ha1]
  have hma : a1.minAlign = max a.minAlign 4 := by rw [ha1]
  simp only [hd1, hfl, hvt] at h2 h3 h
  have hol : obj1 ≤ (bs ++ post).length := by rw [ho1, hd1]; exact Nat.mod_le _ _
  cases dup with
  | some n =>
    obtain ⟨d, h4, h⟩ := Res.bind_eq_ok.mp h
    have hpl := patch_length h4
    cases h
    simp only at hs
    rw [hd1, Nat.mod_eq_of_lt (by omega)] at ho1
    obtain ⟨g1, g2⟩ := findDuplicate_some h3
    refine ⟨vt, n, post, rfl, by rw [ho1]; simp [hbl], h2, rfl, hn, hf, hma, Or.inl ⟨?_, rfl, ?_, bs, hbl, g2⟩⟩
    · exact List.mem_reverse.mp g1
    · exact patch_spec (pre := []) hbl (by rw [ho1]; simp) h4
  | none =>
    obtain ⟨d, h4, h⟩ := Res.bind_eq_ok.mp h
    have hpl := patch_length h4
    cases h
    simp only at hs
    rw [hpl] at hs
    rw [Nat.mod_eq_of_lt hs] at h4
    rw [hd1, Nat.mod_eq_of_lt (by simp only [List.length_append] at hs ⊢; omega)] at ho1
    have g := findDuplicate_none h3
    refine ⟨vt, (vt ++ (bs ++ post)).length, post, rfl, by rw [ho1]; simp [hbl], h2, rfl, hn, hf, hma,
      Or.inr ⟨hpl.symm, ?_, ?_, bs, hbl, ?_⟩⟩
    · rw [Nat.mod_eq_of_lt hs]
    · exact patch_spec hbl (by rw [ho1]; simp) h4
    · intro n hn
      exact g n (List.mem_reverse.mpr hn)

theorem writeVTable_ext {m : Mode} {a : ABuilder} {tail : Nat} {r : Nat × ABuilder}
    (h : a.writeVTable m tail = .ok r) (hs : r.2.data.length < 2 ^ 32) : Ext a r.2 := by
  obtain ⟨vt, vtUse, post, hp, ho, _, _, _, _, _, hd⟩ := writeVTable_spec (obj := r.1) (a' := r.2) h hs
  rcases hd with ⟨_, _, hd, _⟩ | ⟨_, _, hd, _⟩
  · rw [hp, ← List.append_assoc] at hd
    exact ⟨_, hd⟩
  · rw [hp, ← List.append_assoc, ← List.append_assoc] at hd
    exact ⟨_, hd⟩

theorem endTable_ext {m : Mode} {a : ABuilder} {tail : Nat} {r : Nat × ABuilder}
    (h : a.endTable m tail = .ok r) (hs : r.2.data.length < 2 ^ 32) : Ext a r.2 := by
  unfold ABuilder.endTable at h
  obtain ⟨_, _, h⟩ := Res.bind_eq_ok.mp h
  obtain ⟨⟨o, a1⟩, h1, h⟩ := Res.bind_eq_ok.mp h
  cases h
  have := writeVTable_ext h1 hs
  exact this

/-- No call but `reset` shortens the data. -/
theorem stepA_len {m : Mode} {a : ABuilder} {op : Op} {r : Option Nat × ABuilder}
    (h : stepA m a op = .ok r) (hr : op.isReset = false) : a.data.length ≤ r.2.data.length := by
  cases op <;> simp only [stepA, withRetA, noRetA] at h
  case reset => cases hr
  case required => obtain ⟨_, _, h⟩ := Res.bind_eq_ok.mp h; cases h; exact Nat.le_refl _
  case endTable =>
    obtain ⟨r1, h1, h⟩ := Res.bind_eq_ok.mp h; cases h
    unfold ABuilder.endTable at h1
    obtain ⟨_, _, h1⟩ := Res.bind_eq_ok.mp h1
    obtain ⟨r2, h2, h1⟩ := Res.bind_eq_ok.mp h1
    cases h1; exact writeVTable_len h2
  all_goals
    obtain ⟨r1, h1, h⟩ := Res.bind_eq_ok.mp h; cases h
    refine Ext.len ?_
    first
      | exact push_ext h1
      | exact pushSlot_ext h1
      | exact pushSlotAlways_ext h1
      | exact startTable_ext h1
      | exact startVector_ext h1
      | exact endVector_ext h1
      | exact createString_ext h1
      | exact createByteString_ext h1
      | exact createVectorDirect_ext h1
      | exact createVector_ext h1
      | exact createVectorOfStrings_ext h1
      | exact finishWithOpts_ext h1

/-- No call but `reset` changes data already written (below 4 GiB). -/
theorem stepA_ext {m : Mode} {a : ABuilder} {op : Op} {r : Option Nat × ABuilder}
    (h : stepA m a op = .ok r) (hr : op.isReset = false) (hs : r.2.data.length < 2 ^ 32) : Ext a r.2 := by
  cases op <;> simp only [stepA, withRetA, noRetA] at h
  case reset => cases hr
  case required => obtain ⟨_, _, h⟩ := Res.bind_eq_ok.mp h; cases h; exact Ext.refl _
  case endTable => obtain ⟨r1, h1, h⟩ := Res.bind_eq_ok.mp h; cases h; exact endTable_ext h1 hs
  all_goals
    obtain ⟨r1, h1, h⟩ := Res.bind_eq_ok.mp h; cases h
    first
      | exact push_ext h1
      | exact pushSlot_ext h1
      | exact pushSlotAlways_ext h1
      | exact startTable_ext h1
      | exact startVector_ext h1
      | exact endVector_ext h1
      | exact createString_ext h1
      | exact createByteString_ext h1
      | exact createVectorDirect_ext h1
      | exact createVector_ext h1
      | exact createVectorOfStrings_ext h1
      | exact finishWithOpts_ext h1

theorem runA_len {m : Mode} : ∀ {ops : List Op} {a : ABuilder} {r : List (Option Nat) × ABuilder},
    runA m a ops = .ok r → (∀ op ∈ ops, op.isReset = false) → a.data.length ≤ r.2.data.length
  | [], a, r, h, _ => by cases h; exact Nat.le_refl _
  | op :: ops, a, r, h, hr => by
    unfold runA at h
    obtain ⟨r1, h1, h⟩ := Res.bind_eq_ok.mp h
    obtain ⟨r2, h2, h⟩ := Res.bind_eq_ok.mp h
    cases h
    have e2 := runA_len h2 fun o ho => hr o (List.mem_cons_of_mem _ ho)
    exact Nat.le_trans (stepA_len h1 (hr _ (List.mem_cons_self ..))) e2

theorem runA_ext {m : Mode} : ∀ {ops : List Op} {a : ABuilder} {r : List (Option Nat) × ABuilder},
    runA m a ops = .ok r → (∀ op ∈ ops, op.isReset = false) → r.2.data.length < 2 ^ 32 → Ext a r.2
  | [], a, r, h, _, _ => by cases h; exact Ext.refl _
  | op :: ops, a, r, h, hr, hs => by
    unfold runA at h
    obtain ⟨r1, h1, h⟩ := Res.bind_eq_ok.mp h
    obtain ⟨r2, h2, h⟩ := Res.bind_eq_ok.mp h
    cases h
    have hr' : ∀ op ∈ ops, op.isReset = false := fun o ho => hr o (List.mem_cons_of_mem _ ho)
    have := runA_len h2 hr'
    simp only at this hs
    have e2 := runA_ext h2 hr' hs
    exact (stepA_ext h1 (hr _ (List.mem_cons_self ..)) (by omega)).trans e2

end Butte
