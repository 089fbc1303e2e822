import Verif.Rt.TableRT
/-
The largest alignment used so far (`min_align`) along a history, and the layout `finish` produces.
-/
namespace Butte

/-- The values `min_align` can take. -/
def MAOk (n : Nat) : Prop := n = 0 ∨ n = 1 ∨ n = 2 ∨ n = 4 ∨ n = 8

theorem MAOk.max {n k : Nat} (h : MAOk n) (h' : MAOk k) : MAOk (Nat.max n k) := by
  unfold MAOk at *
  have : Nat.max n k = n ∨ Nat.max n k = k := by
    show Max.max n k = n ∨ Max.max n k = k
    omega
  rcases this with e | e <;> rw [e] <;> assumption

theorem PTy.maOk (p : PTy) : MAOk p.size := by
  obtain ⟨k, hk, e⟩ := p.size_pow2
  rw [e]
  rcases (by omega : k = 0 ∨ k = 1 ∨ k = 2 ∨ k = 3) with rfl | rfl | rfl | rfl <;> (unfold MAOk; decide)

/-- `min_align` only grows and stays a possible value. -/
def MA (a a' : ABuilder) : Prop := a.minAlign ≤ a'.minAlign ∧ (MAOk a.minAlign → MAOk a'.minAlign)

theorem MA.refl (a : ABuilder) : MA a a := ⟨Nat.le_refl _, id⟩
theorem MA.trans {a b c : ABuilder} (h : MA a b) (h' : MA b c) : MA a c :=
  ⟨Nat.le_trans h.1 h'.1, fun x => h'.2 (h.2 x)⟩
theorem MA.of_eq {a a' : ABuilder} (h : a'.minAlign = a.minAlign) : MA a a' := ⟨by omega, fun x => by rw [h]; exact x⟩

theorem align_MA {m : Mode} {a a' : ABuilder} {l al : Nat} (h : a.align m l al = .ok a') (hal : MAOk al) :
    MA a a' ∧ al ≤ a'.minAlign := by
  unfold ABuilder.align at h
  obtain ⟨s, _, h⟩ := Res.bind_eq_ok.mp h
  cases h
  exact ⟨⟨by simp only; omega, fun x => x.max hal⟩, by simp only; omega⟩

theorem push_MA {m : Mode} {a : ABuilder} {p : PTy} {x : PVal p} {r : Nat × ABuilder}
    (h : a.push m x = .ok r) : MA a r.2 ∧ p.size ≤ r.2.minAlign := by
  unfold ABuilder.push at h
  obtain ⟨a1, h1, h⟩ := Res.bind_eq_ok.mp h
  obtain ⟨bs, _, h⟩ := Res.bind_eq_ok.mp h
  cases h
  have := align_MA h1 (p.maOk)
  exact this

theorem pushAll_MA {m : Mode} {p : PTy} : ∀ {xs : List (PVal p)} {a a' : ABuilder},
    a.pushAll m xs = .ok a' → MA a a'
  | [], a, a', h => by cases h; exact MA.refl _
  | x :: xs, a, a', h => by
    unfold ABuilder.pushAll at h
    obtain ⟨r, h1, h⟩ := Res.bind_eq_ok.mp h
    exact (push_MA h1).1.trans (pushAll_MA h)

theorem four_maOk : MAOk 4 := by unfold MAOk; decide

theorem PTy.max4_maOk (p : PTy) : MAOk (max p.align 4) := (p.maOk).max four_maOk

theorem createByteString_MA {m : Mode} {a : ABuilder} {bs : Bytes} {r : Nat × ABuilder}
    (h : a.createByteString m bs = .ok r) : MA a r.2 := by
  unfold ABuilder.createByteString at h
  obtain ⟨_, _, h⟩ := Res.bind_eq_ok.mp h
  obtain ⟨_, _, h⟩ := Res.bind_eq_ok.mp h
  obtain ⟨a1, h1, h⟩ := Res.bind_eq_ok.mp h
  obtain ⟨a2, h2, h⟩ := Res.bind_eq_ok.mp h
  exact ((align_MA h1 four_maOk).1.trans (push_MA h2).1).trans
    (MA.trans (MA.of_eq rfl) (push_MA h).1)

theorem createString_MA {m : Mode} {a : ABuilder} {s : String} {r : Nat × ABuilder}
    (h : a.createString m s = .ok r) : MA a r.2 := by
  unfold ABuilder.createString at h
  obtain ⟨_, _, h⟩ := Res.bind_eq_ok.mp h
  exact createByteString_MA h

theorem createVectorDirect_MA {m : Mode} {a : ABuilder} {t : STy} {xs : List (SVal t)} {r : Nat × ABuilder}
    (h : a.createVectorDirect m xs = .ok r) : MA a r.2 ∧ t.size ≤ r.2.minAlign := by
  unfold ABuilder.createVectorDirect at h
  obtain ⟨_, _, h⟩ := Res.bind_eq_ok.mp h
  obtain ⟨_, _, h⟩ := Res.bind_eq_ok.mp h
  obtain ⟨a1, h1, h⟩ := Res.bind_eq_ok.mp h
  have k1 := align_MA h1 (PTy.max4_maOk (.sc t))
  have k2 := (push_MA h).1
  have k3 : MA a1 r.2 := MA.trans (MA.of_eq rfl) k2
  exact ⟨k1.1.trans k3, by have := k3.1; omega⟩

theorem createVector_MA {m : Mode} {a : ABuilder} {p : PTy} {xs : List (PVal p)} {r : Nat × ABuilder}
    (h : a.createVector m xs = .ok r) : MA a r.2 := by
  unfold ABuilder.createVector at h
  obtain ⟨_, _, h⟩ := Res.bind_eq_ok.mp h
  obtain ⟨a1, h1, h⟩ := Res.bind_eq_ok.mp h
  obtain ⟨a2, h2, h⟩ := Res.bind_eq_ok.mp h
  exact ((align_MA h1 p.max4_maOk).1.trans (pushAll_MA h2)).trans (push_MA h).1

theorem createStrings_MA {m : Mode} : ∀ {xs : List String} {a : ABuilder} {acc : List (PVal .off)}
    {r : List (PVal .off) × ABuilder}, a.createStrings m xs acc = .ok r → MA a r.2
  | [], a, acc, r, h => by cases h; exact MA.refl _
  | s :: xs, a, acc, r, h => by
    unfold ABuilder.createStrings at h
    obtain ⟨r1, h1, h⟩ := Res.bind_eq_ok.mp h
    exact (createString_MA h1).trans (createStrings_MA h)

theorem createVectorOfStrings_MA {m : Mode} {a : ABuilder} {xs : List String} {r : Nat × ABuilder}
    (h : a.createVectorOfStrings m xs = .ok r) : MA a r.2 := by
  unfold ABuilder.createVectorOfStrings at h
  obtain ⟨_, _, h⟩ := Res.bind_eq_ok.mp h
  obtain ⟨r1, h1, h⟩ := Res.bind_eq_ok.mp h
  exact (createStrings_MA h1).trans (createVector_MA h)

theorem pushSlotAlways_MA {m : Mode} {a a' : ABuilder} {s : Nat} {p : PTy} {x : PVal p}
    (h : a.pushSlotAlways m s x = .ok a') : MA a a' := by
  unfold ABuilder.pushSlotAlways at h
  obtain ⟨_, _, h⟩ := Res.bind_eq_ok.mp h
  obtain ⟨r, h1, h⟩ := Res.bind_eq_ok.mp h
  cases h
  exact (push_MA h1).1.trans (MA.of_eq rfl)

theorem pushSlot_MA {m : Mode} {a a' : ABuilder} {s : Nat} {p : PTy} {x d : PVal p}
    (h : a.pushSlot m s x d = .ok a') : MA a a' := by
  unfold ABuilder.pushSlot at h
  obtain ⟨_, _, h⟩ := Res.bind_eq_ok.mp h
  split at h
  · cases h; exact MA.refl _
  · exact pushSlotAlways_MA h

theorem writeVTable_MA {m : Mode} {a : ABuilder} {t : Nat} {r : Nat × ABuilder}
    (h : a.writeVTable m t = .ok r) : MA a r.2 := by
  unfold ABuilder.writeVTable at h
  obtain ⟨_, _, h⟩ := Res.bind_eq_ok.mp h
  obtain ⟨r1, h1, h⟩ := Res.bind_eq_ok.mp h
  obtain ⟨vt, _, h⟩ := Res.bind_eq_ok.mp h
  obtain ⟨dup, _, h⟩ := Res.bind_eq_ok.mp h
  have k := (push_MA h1).1
  cases dup with
  | some n =>
    obtain ⟨d, _, h⟩ := Res.bind_eq_ok.mp h
    cases h; exact k.trans (MA.of_eq rfl)
  | none =>
    obtain ⟨d, _, h⟩ := Res.bind_eq_ok.mp h
    cases h; exact k.trans (MA.of_eq rfl)

theorem endTable_MA {m : Mode} {a : ABuilder} {t : Nat} {r : Nat × ABuilder}
    (h : a.endTable m t = .ok r) : MA a r.2 := by
  unfold ABuilder.endTable at h
  obtain ⟨_, _, h⟩ := Res.bind_eq_ok.mp h
  obtain ⟨r1, h1, h⟩ := Res.bind_eq_ok.mp h
  cases h
  exact (writeVTable_MA h1).trans (MA.of_eq rfl)

theorem finish_MA {m : Mode} {a a' : ABuilder} {root : Nat} {i : Option Bytes} {sp : Bool}
    (h : a.finishWithOpts m root i sp = .ok a') : MA a a' := by
  unfold ABuilder.finishWithOpts at h
  obtain ⟨_, _, h⟩ := Res.bind_eq_ok.mp h
  obtain ⟨_, _, h⟩ := Res.bind_eq_ok.mp h
  obtain ⟨a1, h1, h⟩ := Res.bind_eq_ok.mp h
  obtain ⟨a2, h2, h⟩ := Res.bind_eq_ok.mp h
  obtain ⟨r3, h3, h⟩ := Res.bind_eq_ok.mp h
  obtain ⟨a4, h4, h⟩ := Res.bind_eq_ok.mp h
  cases h
  have k1 : MA a a1 := by
    unfold ABuilder.align at h1
    obtain ⟨s, _, h1⟩ := Res.bind_eq_ok.mp h1
    cases h1
    exact MA.of_eq (by simp)
  have k2 : MA a1 a2 := by
    cases i with
    | none => cases h2; exact MA.refl _
    | some bs =>
      unfold ABuilder.pushIdent at h2
      obtain ⟨_, _, h2⟩ := Res.bind_eq_ok.mp h2
      cases h2; exact MA.of_eq rfl
  have k4 : MA r3.2 a4 := by
    unfold ABuilder.pushSizePrefix at h4
    split at h4
    · obtain ⟨r5, h5, h4⟩ := Res.bind_eq_ok.mp h4
      cases h4; exact (push_MA h5).1
    · cases h4; exact MA.refl _
  exact ((k1.trans k2).trans (push_MA h3).1).trans (k4.trans (MA.of_eq rfl))

theorem stepA_MA {m : Mode} {a : ABuilder} {op : Op} {r : Option Nat × ABuilder} (h : stepA m a op = .ok r)
    (hr : op.isReset = false) : MA a r.2 := by
  cases op <;> simp only [stepA, withRetA, noRetA] at h
  case reset => cases hr
  case required => obtain ⟨_, _, h⟩ := Res.bind_eq_ok.mp h; cases h; exact MA.refl _
  all_goals
    obtain ⟨r1, h1, h⟩ := Res.bind_eq_ok.mp h
    cases h
  case push => exact (push_MA h1).1
  case pushSlot => exact pushSlot_MA h1
  case pushSlotAlways => exact pushSlotAlways_MA h1
  case startTable =>
    obtain ⟨_, e⟩ := startTable_spec h1
    rw [e]; exact MA.of_eq rfl
  case endTable => exact endTable_MA h1
  case startVector =>
    unfold ABuilder.startVector at h1
    obtain ⟨_, _, h1⟩ := Res.bind_eq_ok.mp h1
    obtain ⟨_, _, h1⟩ := Res.bind_eq_ok.mp h1
    exact MA.trans (MA.of_eq rfl) (align_MA h1 (PTy.max4_maOk _)).1
  case endVector =>
    unfold ABuilder.endVector at h1
    obtain ⟨_, _, h1⟩ := Res.bind_eq_ok.mp h1
    exact MA.trans (MA.of_eq rfl) (push_MA h1).1
  case createString => exact createString_MA h1
  case createByteString => exact createByteString_MA h1
  case createVectorDirect => exact (createVectorDirect_MA h1).1
  case createVector => exact createVector_MA h1
  case createVectorOfStrings => exact createVectorOfStrings_MA h1
  case finish => exact finish_MA h1

theorem runA_MA {m : Mode} : ∀ {ops : List Op} {a : ABuilder} {r : List (Option Nat) × ABuilder},
    runA m a ops = .ok r → NoReset ops → MA a r.2
  | [], a, r, h, _ => by cases h; exact MA.refl _
  | op :: ops, a, r, h, hr => by
    unfold runA at h
    obtain ⟨r1, h1, h⟩ := Res.bind_eq_ok.mp h
    obtain ⟨r2, h2, h⟩ := Res.bind_eq_ok.mp h
    cases h
    exact (stepA_MA h1 (hr _ (List.mem_cons_self ..))).trans
      (runA_MA (r := r2) h2 fun o ho => hr o (List.mem_cons_of_mem _ ho))

theorem runA_MAOk {m : Mode} : ∀ {ops : List Op} {a : ABuilder} {r : List (Option Nat) × ABuilder},
    runA m a ops = .ok r → MAOk a.minAlign → MAOk r.2.minAlign
  | [], a, r, h, h0 => by cases h; exact h0
  | op :: ops, a, r, h, h0 => by
    unfold runA at h
    obtain ⟨r1, h1, h⟩ := Res.bind_eq_ok.mp h
    obtain ⟨r2, h2, h⟩ := Res.bind_eq_ok.mp h
    cases h
    refine runA_MAOk (r := r2) h2 ?_
    cases hr : op.isReset with
    | false => exact (stepA_MA h1 hr).2 h0
    | true =>
      cases op <;> try (cases hr)
      simp only [stepA] at h1
      cases h1
      exact Or.inl rfl

theorem Reachable.maOk {m : Mode} {b : Builder} (h : Reachable m b) : MAOk b.minAlign := by
  obtain ⟨cap, b0, ops, rets, h0, h1⟩ := h
  obtain ⟨a, e, hr⟩ := run_fwd ops (new_R h0) h1
  rw [hr.minAlign]
  exact runA_MAOk e (Or.inl rfl)

/-! ### Layout of `finish` -/

theorem padding_one {n : Nat} (hn : n < 2 ^ 64) : paddingBytes n 1 = 0 :=
  padding_zero hn ⟨0, by decide, rfl⟩ (Nat.mod_one n)

theorem padding_zero_align {n : Nat} (hn : n < 2 ^ 64) (h0 : 0 < n) : paddingBytes n 0 = 2 ^ 64 - n := by
  unfold paddingBytes
  simp only [BitVec.toNat_and, BitVec.toNat_add, BitVec.toNat_not, BitVec.toNat_ofNat]
  rw [show (BitVec.ofNat 64 0 - 1#64).toNat = 2 ^ 64 - 1 by decide]
  rw [Nat.and_two_pow_sub_one_eq_mod]
  omega

theorem finish_spec {m : Mode} {a a' : ABuilder} {root : Nat} {ident : Option Bytes} {sp : Bool}
    (h : a.finishWithOpts m root ident sp = .ok a') (hma : MAOk a.minAlign)
    (hi : ∀ i, ident = some i → i.length = 4) (hs : a'.data.length < 2 ^ 32) :
    ∃ pad1 pad2 offb d3, d3 = List.replicate pad2 0 ++ (ident.getD [] ++ (List.replicate pad1 0 ++ a.data)) ∧
      (Builder.offVal root).pushBytes m d3.length = .ok offb ∧ offb.length = 4 ∧
      a'.data = (if sp then leBytes 4 (offb ++ d3).length else []) ++ (offb ++ d3) ∧
      (4 ≤ a.minAlign → pad2 = 0) ∧ a'.data.length % max a.minAlign 4 = 0 ∧ (offb ++ d3).length % 4 = 0 ∧
      a'.finished = true ∧ a'.vtables = [] ∧ a'.nested = a.nested ∧ a'.fieldLocs = a.fieldLocs ∧
      a'.minAlign = max a.minAlign 4 ∧ pad1 < a.minAlign ∧ pad2 < 4 := by
  unfold ABuilder.finishWithOpts at h
  obtain ⟨_, _, h⟩ := Res.bind_eq_ok.mp h
  obtain ⟨_, _, h⟩ := Res.bind_eq_ok.mp h
  obtain ⟨a1, h1, h⟩ := Res.bind_eq_ok.mp h
  obtain ⟨a2, h2, h⟩ := Res.bind_eq_ok.mp h
  obtain ⟨⟨o3, a3⟩, h3, h⟩ := Res.bind_eq_ok.mp h
  obtain ⟨a4, h4, h⟩ := Res.bind_eq_ok.mp h
  cases h
  simp only at hs
  have l1 := (align_ext h1).len
  have hid : a2 = a1.prepend (ident.getD []) ∧ (ident.getD []).length = (if ident.isSome then 4 else 0) := by
    cases ident with
    | none => cases h2; exact ⟨rfl, rfl⟩
    | some i =>
      unfold ABuilder.pushIdent at h2
      obtain ⟨_, _, h2⟩ := Res.bind_eq_ok.mp h2
      cases h2
      exact ⟨rfl, hi i rfl⟩
  obtain ⟨e2, hidl⟩ := hid
  have l3 := push_len_le h3
  have hszo : PTy.off.size = 4 := rfl
  have hszu : (PTy.sc STy.u32).size = 4 := rfl
  have l4 : a3.data.length ≤ a4.data.length := by
    unfold ABuilder.pushSizePrefix at h4
    split at h4
    · obtain ⟨⟨o5, a5⟩, h5, h4⟩ := Res.bind_eq_ok.mp h4
      cases h4
      have := push_len_le h5
      omega
    · cases h4; omega
  have l2 : a2.data.length = (if ident.isSome then 4 else 0) + a1.data.length := by
    rw [e2]; simp [ABuilder.prepend, hidl]
  simp only at l1
  have hta : (if sp then 4 else 0) + (if ident.isSome then 4 else 0) ≤ 8 := by
    split <;> split <;> omega
  have e1 := align_spec h1 (by simp only; omega)
  simp only at e1
  obtain ⟨offb, p1, p2, p3, p4⟩ := push_spec h3 (by omega)
  rw [hszo] at p1 p2 p4
  have hpad2 := padding_dvd (n := a2.data.length + 4) (by omega) pow2_4
  have hpad2l := padding_lt (n := a2.data.length + 4) (by omega) pow2_4
  generalize hq2 : paddingBytes (a2.data.length + 4) 4 = pad2 at *
  -- the first padding
  have hn0 : 0 < a.data.length + (4 + (if sp then 4 else 0) + (if ident.isSome then 4 else 0)) := by omega
  have hpz := @padding_zero_align (a.data.length + (4 + (if sp then 4 else 0) + (if ident.isSome then 4 else 0)))
    (by omega) hn0
  have hpd := fun k (hk : k < 64) => padding_dvd
    (n := a.data.length + (4 + (if sp then 4 else 0) + (if ident.isSome then 4 else 0))) (a := 2 ^ k)
    (by omega) ⟨k, hk, rfl⟩
  have hpl := fun k (hk : k < 64) => padding_lt
    (n := a.data.length + (4 + (if sp then 4 else 0) + (if ident.isSome then 4 else 0))) (a := 2 ^ k)
    (by omega) ⟨k, hk, rfl⟩
  have hma' : a.minAlign ≠ 0 := by
    intro h0
    rw [h0] at e1
    rw [hpz] at e1
    have : a1.data.length = (2 ^ 64 - (a.data.length + (4 + (if sp then 4 else 0) + (if ident.isSome then 4 else 0)))) +
        a.data.length := by rw [e1]; simp
    omega
  generalize hq1 : paddingBytes (a.data.length + (4 + (if sp then 4 else 0) + (if ident.isSome then 4 else 0))) a.minAlign = pad1 at *
  have hl1 : a1.data.length = pad1 + a.data.length := by rw [e1]; simp
  have hmod : ((a.data.length + (4 + (if sp then 4 else 0) + (if ident.isSome then 4 else 0))) + pad1) % a.minAlign = 0 := by
    rw [← hq1]
    rcases hma with h0 | h0 | h0 | h0 | h0
    · exact absurd h0 hma'
    · rw [h0]; exact Nat.mod_one _
    · rw [h0]; exact hpd 1 (by decide)
    · rw [h0]; exact hpd 2 (by decide)
    · rw [h0]; exact hpd 3 (by decide)
  have hlt1 : pad1 < a.minAlign := by
    rw [← hq1]
    rcases hma with h0 | h0 | h0 | h0 | h0
    · exact absurd h0 hma'
    · rw [h0]; exact hpl 0 (by decide)
    · rw [h0]; exact hpl 1 (by decide)
    · rw [h0]; exact hpl 2 (by decide)
    · rw [h0]; exact hpl 3 (by decide)
  have hd3 : (offb ++ (List.replicate pad2 0 ++ (ident.getD [] ++ (List.replicate pad1 0 ++ a.data)))) = a3.data := by
    rw [p4, e2, e1]; rfl
  have hl3 : a3.data.length = 4 + (pad2 + a2.data.length) := by rw [p4]; simp [p2]
  have hz2 : 4 ≤ a.minAlign → pad2 = 0 := by
    intro h4'
    have hm4 : ((a.data.length + (4 + (if sp then 4 else 0) + (if ident.isSome then 4 else 0))) + pad1) % 4 = 0 := by
      rcases hma with h0 | h0 | h0 | h0 | h0 <;> rw [h0] at hmod h4' <;> omega
    have : (if sp = true then 4 else 0) = 0 ∨ (if sp = true then 4 else 0) = 4 := by split <;> simp
    omega
  have hX4 : a3.data.length % 4 = 0 := by omega
  have hma3 : a3.minAlign = max a.minAlign 4 := by rw [p4, e2, e1]; simp [ABuilder.prepend]
  have h4' : a4 = { a3 with data := (if sp then leBytes 4 a3.data.length else []) ++ a3.data } := by
    unfold ABuilder.pushSizePrefix at h4
    cases sp with
    | false => cases h4; rfl
    | true =>
      simp only [if_true] at h4 ⊢
      obtain ⟨⟨o5, a5⟩, h5, h4⟩ := Res.bind_eq_ok.mp h4
      cases h4
      rw [push_aligned (by rw [hszu]; omega) (by rw [hszu]; omega)] at h5
      simp only [PVal.pushBytes, Res.ok_bind, hszu] at h5
      rw [u32v_bytes (by omega)] at h5
      have hmx : max a3.minAlign 4 = a3.minAlign := by rw [hma3]; omega
      rw [hmx] at h5
      cases h5
      rfl
  refine ⟨pad1, pad2, offb, _, rfl, ?_, p2, ?_, hz2, ?_, ?_, rfl, ?_, ?_, ?_, ?_, hlt1, hpad2l⟩
  · rw [← p1]
    congr 1
    rw [e2, e1]; simp [ABuilder.prepend]
  · rw [hd3, h4']
  · simp only
    have hl4 : a4.data.length = (if sp then 4 else 0) + a3.data.length := by
      rw [h4']
      cases sp <;> simp
    have hsp : (if sp = true then 4 else 0) = 0 ∨ (if sp = true then 4 else 0) = 4 := by split <;> simp
    rcases hma with h0 | h0 | h0 | h0 | h0
    · exact absurd h0 hma'
    · rw [h0]; simp only [show max 1 4 = 4 from rfl]; omega
    · rw [h0]; simp only [show max 2 4 = 4 from rfl]; omega
    · rw [h0]; simp only [show max 4 4 = 4 from rfl]; omega
    · have := hz2 (by omega)
      rw [h0] at hmod ⊢; simp only [show max 8 4 = 8 from rfl]
      omega
  · rw [hd3]; exact hX4
  · simp only; rw [h4', p4, e2, e1]; rfl
  · simp only; rw [h4', p4, e2, e1]; rfl
  · simp only; rw [h4', p4, e2, e1]; rfl
  · simp only; rw [h4']; exact hma3

end Butte
