import Verif.Rt.VecEq
import Verif.Rt.Sample
import Verif.Props.Iter
import Verif.Props.BuilderMem
/-
Properties C14–C17: strings and vectors read back as written, whatever happens to the builder afterwards.
-/
namespace Butte

set_option maxRecDepth 4000

theorem R.step {m : Mode} {b b' : Builder} {a : ABuilder} {op : Op} {r : Option Nat} (h : R b a)
    (e : step m b op = .ok (r, b')) : ∃ a', stepA m a op = .ok (r, a') ∧ R b' a' := by
  obtain ⟨⟨r', a'⟩, f, hr, h'⟩ := (step_sim h op).fwd _ e
  simp only at hr h'
  subst hr
  exact ⟨a', f, h'⟩

theorem withRetA_some {r : Res (Nat × ABuilder)} {o : Nat} {a : ABuilder} (h : withRetA r = .ok (some o, a)) :
    r = .ok (o, a) := by
  unfold withRetA at h
  obtain ⟨⟨o', a'⟩, h1, h⟩ := Res.bind_eq_ok.mp h
  cases h; exact h1

/-- A step followed by calls that are not `reset`, on the abstract side. -/
theorem R.step_run {m : Mode} {b b₁ b₂ : Builder} {op : Op} {r : Option Nat} {rest : List Op}
    {rets : List (Option Nat)} (hb : Reachable m b) (e : Butte.step m b op = .ok (r, b₁))
    (e' : run m b₁ rest = .ok (rets, b₂)) (hr : NoReset rest) (hs : b₂.usedSpace < 2 ^ 32) :
    ∃ a a₁ a₂, R b a ∧ R b₁ a₁ ∧ R b₂ a₂ ∧ stepA m a op = .ok (r, a₁) ∧ Ext a₁ a₂ ∧
      a₂.data.length < 2 ^ 32 ∧ a₁.data.length ≤ a₂.data.length ∧
      b₂.unfinishedData = a₂.data ∧ b₂.usedSpace = a₂.data.length := by
  obtain ⟨a, h⟩ := hb.toR
  obtain ⟨a₁, f, h₁⟩ := h.step e
  obtain ⟨a₂, f', h₂⟩ := run_fwd rest h₁ e'
  have hl : a₂.data.length < 2 ^ 32 := by rw [← h₂.used]; exact hs
  have hx := runA_ext f' hr hl
  exact ⟨a, a₁, a₂, h, h₁, h₂, f, hx, hl, hx.len, h₂.unfinished, h₂.used⟩

/-! ### C14 -/

/-- **C14** `create_string(s)`, in any state, followed by any calls other than `reset`: following the
returned offset in the data reads `s`. -/
theorem C14_string_round_trip (m : Mode) (b b₁ b₂ : Builder) (s : String) (o : Nat) (rest : List Op)
    (rets : List (Option Nat)) (hb : Reachable m b) (e : step m b (.createString s) = .ok (some o, b₁))
    (e' : run m b₁ rest = .ok (rets, b₂)) (hr : NoReset rest) (hs : b₂.usedSpace < 2 ^ 32) :
    o ≤ b₂.usedSpace ∧ FTy.follow m .str b₂.unfinishedData (b₂.usedSpace - o) = .ok s := by
  obtain ⟨a, a₁, a₂, _, _, _, f, hx, hl, hle, hd, hu⟩ := R.step_run hb e e' hr hs
  simp only [stepA] at f
  have f1 := withRetA_some f
  obtain ⟨k1, _, k3, _⟩ := createString_spec f1 (by omega)
  rw [hd, hu]
  exact ⟨by omega, (k3.ext hx).string hl⟩

def byteVal (x : UInt8) : PVal (.sc .u8) := (⟨x.toNat, x.toNat_lt⟩ : Fin 256)

theorem byteVal_bytes (x : UInt8) : SVal.bytes (t := .u8) (byteVal x) = [x] := by
  unfold SVal.bytes byteVal
  show leBytes 1 x.toNat = [x]
  simp [leBytes]

/-- **C14** for `create_byte_string`: the bytes come back as they were pushed (read as `&[u8]`), as the string
they encode if they are UTF-8, and as a `NonUtf8String` error otherwise. -/
theorem C14_byte_string_round_trip (m : Mode) (b b₁ b₂ : Builder) (bs : Bytes) (o : Nat) (rest : List Op)
    (rets : List (Option Nat)) (hb : Reachable m b) (e : step m b (.createByteString bs) = .ok (some o, b₁))
    (e' : run m b₁ rest = .ok (rets, b₂)) (hr : NoReset rest) (hs : b₂.usedSpace < 2 ^ 32) :
    o ≤ b₂.usedSpace ∧
    (∃ xs : List (SVal .u8), FTy.follow m (.slice .u8) b₂.unfinishedData (b₂.usedSpace - o) = .ok xs ∧
      xs.map (·.val) = bs.map (·.toNat)) ∧
    (∀ s : String, s.toByteArray.data.toList = bs →
      FTy.follow m .str b₂.unfinishedData (b₂.usedSpace - o) = .ok s) ∧
    ((∀ s : String, s.toByteArray.data.toList ≠ bs) →
      FTy.follow m .str b₂.unfinishedData (b₂.usedSpace - o) = .err .nonUtf8String) := by
  obtain ⟨a, a₁, a₂, _, _, _, f, hx, hl, hle, hd, hu⟩ := R.step_run hb e e' hr hs
  simp only [stepA] at f
  have f1 := withRetA_some f
  obtain ⟨k1, _, k3⟩ := createByteString_spec f1 (by omega)
  rw [hd, hu]
  have hat : At a₁.data o (strObj bs) := by
    rw [k1, k3]; exact At.head _ _
  have hat2 := hat.ext hx
  have hlen := hat2.len_le
  have hle2 := hat2.le
  simp only [strObj, List.length_append, leBytes_length, List.length_cons, List.length_nil] at hlen
  refine ⟨by omega, ?_, ?_, ?_⟩
  · let xs : List (PVal (.sc .u8)) := bs.map byteVal
    have hxl : xs.length = bs.length := List.length_map _
    have hva : VecAt m a₂.data o xs := by
      refine ⟨?_, ?_, ?_⟩
      · rw [hxl]
        have h' : At a₂.data o ([] ++ (leBytes 4 bs.length ++ (bs ++ [0]))) := hat2
        simpa using h'.sub
      · have : (PTy.sc STy.u8).size = 1 := rfl
        rw [hxl, this]; omega
      · intro i hi
        have h1 : (PTy.sc STy.u8).size = 1 := rfl
        rw [hxl] at hi
        refine ⟨by rw [h1]; omega, [bs[i]], ?_, ?_⟩
        · have : SVal.bytes (t := .u8) xs[i] = [bs[i]] := by
            simp only [xs, List.getElem_map]
            exact byteVal_bytes _
          simp only [PVal.pushBytes]
          rw [this]
        · rw [h1, Nat.one_mul]
          have hs' := split_at bs i 1
          have hone : (bs.drop i).take 1 = [bs[i]] := by
            rw [List.drop_eq_getElem_cons hi]; rfl
          rw [hone] at hs'
          have h' : At a₂.data o ((leBytes 4 bs.length ++ bs.take i) ++ ([bs[i]] ++ (bs.drop (i + 1) ++ [0]))) := by
            have h0 : At a₂.data o (leBytes 4 bs.length ++ (bs ++ [0])) := hat2
            have e0 : leBytes 4 bs.length ++ (bs ++ [0]) =
                (leBytes 4 bs.length ++ bs.take i) ++ ([bs[i]] ++ (bs.drop (i + 1) ++ [0])) := by
              have e1 : bs ++ [0] = (bs.take i ++ ([bs[i]] ++ bs.drop (i + 1))) ++ [0] := congrArg (· ++ [0]) hs'
              rw [e1]
              simp only [List.append_assoc]
            rw [← e0]; exact h0
          have := h'.sub
          rw [List.length_append, leBytes_length, List.length_take, Nat.min_eq_left (by omega),
            ← Nat.sub_sub] at this
          exact this
    refine ⟨xs, hva.slice hl, ?_⟩
    exact List.map_map (l := bs) (f := byteVal) (g := fun x : SVal .u8 => x.val)
  · intro s hss
    have := hat2.str (m := m) hl
    have e2 : ByteArray.mk bs.toArray = ByteArray.mk (Builder.strBytes s).toArray := by
      rw [← hss]; rfl
    rw [e2, fromUTF8?_strBytes] at this
    exact this
  · intro hno
    have := hat2.str (m := m) hl
    cases hc : String.fromUTF8? (ByteArray.mk bs.toArray) with
    | none => rw [hc] at this; exact this
    | some s =>
      exfalso
      apply hno s
      exact fromUTF8?_some.mp hc

/-- Concrete case: a string with an embedded NUL after other content, then a whole table and `finish`. -/
example (m : Mode) : ∃ b o b₁ rets b₂, Reachable m b ∧ b.usedSpace = 1 ∧
    step m b (.createString "h\x00i") = .ok (some o, b₁) ∧ run m b₁ sampleOps = .ok (rets, b₂) ∧
    NoReset sampleOps ∧ b₂.usedSpace < 2 ^ 32 := by
  obtain ⟨b, hb, _, p⟩ := fromNew_reachable (m := m) (cap := 64) (ops := [.push _ (u8c 7)])
    (p := fun r => r.2.usedSpace == 1 && ((step m r.2 (.createString "h\x00i")).okAnd fun q =>
      q.1.isSome && (run m q.2 sampleOps).okAnd fun z => decide (z.2.usedSpace < 2 ^ 32)))
    (by cases m <;> decide)
  simp only [Bool.and_eq_true, beq_iff_eq] at p
  obtain ⟨⟨o, b₁⟩, e, q⟩ := Res.okAnd_ex p.2
  simp only [Bool.and_eq_true, Option.isSome_iff_exists] at q
  obtain ⟨o', ho⟩ := q.1
  subst ho
  obtain ⟨⟨r, b₂⟩, e', z⟩ := Res.okAnd_ex q.2
  exact ⟨b, o', b₁, r, b₂, hb, p.1, e, e', by decide, of_decide_eq_true z⟩

/-! ### C15 -/

theorem vec_collects {m : Mode} {e : FTy} {v : Vec e} (hv : v.buf.Valid) (hz : 0 < e.size) (xs : List e.Inner)
    (hlen : v.len m = .ok xs.length) (hget : ∀ i (hi : i < xs.length), v.get m i = .ok xs[i]) :
    ∃ it, v.iter m = .ok it ∧ Collects m it (xs.map .ok) := by
  obtain ⟨it, h1, _, h2⟩ := iter_rep hv hz hlen
  refine ⟨it, h1, Rep.collects hz _ ?_⟩
  have : ((List.range xs.length).map fun i => VIter.item (v.get m i)) =
      (xs.map (Except.ok (ε := Error))).map .ok := by
    apply List.ext_getElem
    · simp
    · intro i h3 h4
      have h5 : i < xs.length := by simpa using h4
      simp only [List.getElem_map, List.getElem_range]
      rw [hget i h5]; rfl
  rw [← this]; exact h2

/-- **C15** `create_vector` of scalars, in any state, followed by any calls other than `reset`: the vector at
the returned offset has the same length and elements; iterating it and viewing it as a slice give the list. -/
theorem C15_scalar_vector_round_trip (m : Mode) (b b₁ b₂ : Builder) (t : STy) (items : List (SVal t)) (o : Nat)
    (rest : List Op) (rets : List (Option Nat)) (hb : Reachable m b)
    (e : step m b (.createVector (.sc t) items) = .ok (some o, b₁))
    (e' : run m b₁ rest = .ok (rets, b₂)) (hr : NoReset rest) (hs : b₂.usedSpace < 2 ^ 32) :
    let v : Vec (.scalar t) := ⟨b₂.unfinishedData, b₂.usedSpace - o⟩
    o ≤ b₂.usedSpace ∧ v.len m = .ok items.length ∧
    (∀ i (hi : i < items.length), v.get m i = .ok items[i]) ∧
    v.safeSlice m = .ok items ∧
    ∃ it, v.iter m = .ok it ∧ Collects m it (items.map .ok) := by
  intro v
  obtain ⟨a, a₁, a₂, _, _, _, f, hx, hl, hle, hd, hu⟩ := R.step_run hb e e' hr hs
  simp only [stepA] at f
  have f1 := withRetA_some f
  obtain ⟨k1, _, _, k4, _⟩ := createVector_spec f1 (by omega)
  have hva := k4.ext hx
  have hi' : isizeMax = 2 ^ 63 - 1 := rfl
  have hv : v = ⟨a₂.data, a₂.data.length - o⟩ := by simp only [v]; rw [hd, hu]
  have hval : v.buf.Valid := by unfold Bytes.Valid; rw [hv]; simp only; omega
  have hlen : v.len m = .ok items.length := by rw [hv]; exact hva.len hl _
  have hget : ∀ i (hi : i < items.length), v.get m i = .ok items[i] := by
    intro i hi
    rw [hv, hva.get hl (.scalar t) rfl hi]
    exact (hva.2.2 i hi).scalar (by omega)
  refine ⟨by omega, hlen, hget, ?_, ?_⟩
  · rw [hv]; exact hva.slice hl
  · exact vec_collects (e := .scalar t) hval t.size_pos items hlen hget

/-- Concrete case: three `u16` created after a byte, then a whole table and `finish`. -/
example (m : Mode) : ∃ b o b₁ rets b₂, Reachable m b ∧
    step m b (.createVector (.sc .u16) [u16c 5, u16c 300, u16c 65535]) = .ok (some o, b₁) ∧
    run m b₁ sampleOps = .ok (rets, b₂) ∧ NoReset sampleOps ∧ b₂.usedSpace < 2 ^ 32 := by
  obtain ⟨b, hb, _, p⟩ := fromNew_reachable (m := m) (cap := 64) (ops := [.push _ (u8c 7)])
    (p := fun r => ((step m r.2 (.createVector (.sc .u16) [u16c 5, u16c 300, u16c 65535])).okAnd fun q =>
      q.1.isSome && (run m q.2 sampleOps).okAnd fun z => decide (z.2.usedSpace < 2 ^ 32)))
    (by cases m <;> decide)
  obtain ⟨⟨o, b₁⟩, e, q⟩ := Res.okAnd_ex p
  simp only [Bool.and_eq_true, Option.isSome_iff_exists] at q
  obtain ⟨o', ho⟩ := q.1
  subst ho
  obtain ⟨⟨r, b₂⟩, e', z⟩ := Res.okAnd_ex q.2
  exact ⟨b, o', b₁, r, b₂, hb, e, e', by decide, of_decide_eq_true z⟩

/-! ### C17 -/

/-- **C17** `create_vector_of_strings`, in any state, followed by any calls other than `reset`: the vector at
the returned offset has the same length, and its elements read as the strings. -/
theorem C17_string_vector_round_trip (m : Mode) (b b₁ b₂ : Builder) (xs : List String) (o : Nat)
    (rest : List Op) (rets : List (Option Nat)) (hb : Reachable m b)
    (e : step m b (.createVectorOfStrings xs) = .ok (some o, b₁))
    (e' : run m b₁ rest = .ok (rets, b₂)) (hr : NoReset rest) (hs : b₂.usedSpace < 2 ^ 31) :
    let v : Vec (.fwdU .str) := ⟨b₂.unfinishedData, b₂.usedSpace - o⟩
    o ≤ b₂.usedSpace ∧ v.len m = .ok xs.length ∧
    (∀ i (hi : i < xs.length), v.get m i = .ok xs[i]) ∧
    ∃ it, v.iter m = .ok it ∧ Collects m it (xs.map .ok) := by
  intro v
  obtain ⟨a, a₁, a₂, _, _, _, f, hx, hl, hle, hd, hu⟩ := R.step_run hb e e' hr (by omega)
  simp only [stepA] at f
  have f1 := withRetA_some f
  unfold ABuilder.createVectorOfStrings at f1
  obtain ⟨_, _, f1⟩ := Res.bind_eq_ok.mp f1
  obtain ⟨⟨offs, a₀⟩, f0, f1⟩ := Res.bind_eq_ok.mp f1
  simp only at f1
  have hl0 := (createVector_ext f1).len
  simp only at hl0
  obtain ⟨k1, _, _, k4, kx, _⟩ := createVector_spec f1 (by omega)
  obtain ⟨new, n1, _, _, n4⟩ := createStrings_spec f0 (by omega)
  have hlenN := n4.length_eq
  have hlo : offs.length = xs.length := by rw [n1]; simp [← hlenN]
  have hva := k4.ext hx
  have hi' : isizeMax = 2 ^ 63 - 1 := rfl
  have hv : v = ⟨a₂.data, a₂.data.length - o⟩ := by simp only [v]; rw [hd, hu]
  have hval : v.buf.Valid := by unfold Bytes.Valid; rw [hv]; simp only; omega
  have hlen : v.len m = .ok xs.length := by rw [hv, ← hlo]; exact hva.len hl _
  have hget : ∀ i (hi : i < xs.length), v.get m i = .ok xs[i] := by
    intro i hi
    have hio : i < offs.length := by omega
    rw [hv, hva.get hl (.fwdU .str) rfl hio]
    have hp := hva.2.2 i hio
    have h1 := List.forall₂_iff_get.mp n4
    have h2 := h1.2 (xs.length - 1 - i) (by simp; omega) (by rw [← hlenN]; simp; omega)
    simp only [List.get_eq_getElem, List.getElem_reverse] at h2
    have e1 : offs[i] = new[xs.length - 1 - i]'(by rw [← hlenN]; simp; omega) := by
      simp only [n1, List.append_nil, List.getElem_reverse]
      congr 1
      rw [← hlenN]; simp
    simp only [show xs.length - 1 - (xs.length - 1 - i) = i by omega] at h2
    rw [← e1] at h2
    have hsz : PTy.off.size = 4 := rfl
    have h24 := hva.2.1
    have hmul : PTy.off.size * (i + 1) ≤ PTy.off.size * offs.length := Nat.mul_le_mul_left _ (by omega)
    rw [Nat.mul_add, Nat.mul_one] at hmul
    have hx2 : offs[i].val ≤ o - 4 - PTy.off.size * i := by
      have hrm := createVector_spec f1 (by omega)
      have := hrm.2.2.2.2.2.1
      omega
    rw [hp.off (by omega) hx2]
    exact ((h2.1.ext kx).ext hx).string hl
  refine ⟨by omega, hlen, hget, ?_⟩
  exact vec_collects (e := .fwdU .str) hval (by decide) xs hlen hget

/-- Concrete case: two strings, then a whole table and `finish`. -/
example (m : Mode) : ∃ b o b₁ rets b₂, Reachable m b ∧
    step m b (.createVectorOfStrings ["a", "bc"]) = .ok (some o, b₁) ∧
    run m b₁ sampleOps = .ok (rets, b₂) ∧ NoReset sampleOps ∧ b₂.usedSpace < 2 ^ 31 := by
  obtain ⟨b, hb, _, p⟩ := fromNew_reachable (m := m) (cap := 128) (ops := [.push _ (u8c 7)])
    (p := fun r => ((step m r.2 (.createVectorOfStrings ["a", "bc"])).okAnd fun q =>
      q.1.isSome && (run m q.2 sampleOps).okAnd fun z => decide (z.2.usedSpace < 2 ^ 31)))
    (by cases m <;> decide)
  obtain ⟨⟨o, b₁⟩, e, q⟩ := Res.okAnd_ex p
  simp only [Bool.and_eq_true, Option.isSome_iff_exists] at q
  obtain ⟨o', ho⟩ := q.1
  subst ho
  obtain ⟨⟨r, b₂⟩, e', z⟩ := Res.okAnd_ex q.2
  exact ⟨b, o', b₁, r, b₂, hb, e, e', by decide, of_decide_eq_true z⟩

end Butte

namespace Butte

/-! ### C16 -/

/-- The three ways of writing a vector of scalars: `create_vector`, `create_vector_direct`, and `start_vector`,
pushing the items in reverse, `end_vector`. -/
inductive WritesVector (m : Mode) (b : Builder) (t : STy) (items : List (SVal t)) (o : Nat) (b' : Builder) : Prop
  | create (e : step m b (.createVector (.sc t) items) = .ok (some o, b'))
  | direct (e : step m b (.createVectorDirect t items) = .ok (some o, b'))
  | manual (h : items.length < 2 ^ 64) (rets : List (Option Nat))
      (e : run m b (.startVector (.sc t) ⟨items.length, h⟩ ::
        (items.reverse.map (fun x : SVal t => .push (.sc t) x) ++ [.endVector ⟨items.length, h⟩])) =
          .ok (rets ++ [some o], b'))

theorem WritesVector.result {m : Mode} {b b' : Builder} {a : ABuilder} {t : STy} {items : List (SVal t)} {o : Nat}
    (h : WritesVector m b t items o b') (hr : R b a) (hn : a.nested = false)
    (hs : a.data.length + items.length * t.size + 32 < 2 ^ 64) :
    o = (vecResult a t items).data.length % 2 ^ 32 ∧ R b' (vecResult a t items) := by
  cases h with
  | create e =>
    obtain ⟨a', f, h'⟩ := hr.step e
    have f := withRetA_some f
    have f2 := createVector_eq (m := m) hs
    rw [f2] at f
    cases f
    exact ⟨rfl, h'⟩
  | direct e =>
    obtain ⟨a', f, h'⟩ := hr.step e
    have f := withRetA_some f
    rw [createVectorDirect_eq hn hs] at f
    cases f
    exact ⟨rfl, h'⟩
  | manual h rets e =>
    obtain ⟨a', f, h'⟩ := run_fwd _ hr e
    obtain ⟨rets', f'⟩ := manualVector_eq (m := m) h hn hs
    unfold manualVector at f'
    rw [f'] at f
    injection f with f
    injection f with f1 f2
    have := List.append_inj_right' f1 rfl
    injection this with this
    injection this with this
    subst f2
    exact ⟨this.symm, h'⟩

/-- **C16** Whichever way a vector of scalars is written, the returned offset and the bytes are the same and
the resulting builders cannot be told apart. -/
theorem C16_vector_constructors_agree (m : Mode) (b b₁ b₂ : Builder) (t : STy) (items : List (SVal t)) (o₁ o₂ : Nat)
    (hb : Reachable m b) (hn : b.nested = false) (hs : b.usedSpace + items.length * t.size + 32 < 2 ^ 64)
    (h₁ : WritesVector m b t items o₁ b₁) (h₂ : WritesVector m b t items o₂ b₂) :
    o₁ = o₂ ∧ b₁.unfinishedData = b₂.unfinishedData ∧ Indistinguishable m b₁ b₂ := by
  obtain ⟨a, h⟩ := hb.toR
  rw [h.used] at hs
  rw [h.nested] at hn
  obtain ⟨e1, r1⟩ := h₁.result h hn hs
  obtain ⟨e2, r2⟩ := h₂.result h hn hs
  exact ⟨by rw [e1, e2], by rw [r1.unfinished, r2.unfinished], r1.indist r2⟩

/-- **C16**, completion: below the size limit all three ways complete. -/
theorem C16_vector_constructors_complete (m : Mode) (b : Builder) (t : STy) (items : List (SVal t))
    (hl : items.length < 2 ^ 64) (hb : Reachable m b) (hn : b.nested = false)
    (hs : b.usedSpace + items.length * t.size + 32 ≤ 2 ^ 31 - 2 ^ 17) :
    ∃ o, (∃ b', step m b (.createVector (.sc t) items) = .ok (some o, b')) ∧
      (∃ b', step m b (.createVectorDirect t items) = .ok (some o, b')) ∧
      (∃ rets b', run m b (.startVector (.sc t) ⟨items.length, hl⟩ ::
        (items.reverse.map (fun x : SVal t => .push (.sc t) x) ++ [.endVector ⟨items.length, hl⟩])) =
          .ok (rets ++ [some o], b')) := by
  obtain ⟨a, h⟩ := hb.toR
  rw [h.used] at hs
  rw [h.nested] at hn
  have hs' : a.data.length + items.length * t.size + 32 < 2 ^ 64 := by omega
  have hlen : (vecResult a t items).data.length ≤ 2 ^ 31 - 2 ^ 17 := by
    have := (vec_align hs').1
    simp only [vecResult, List.length_append, leBytes_length, scalarBytes_length, List.length_replicate]
    omega
  refine ⟨(vecResult a t items).data.length % 2 ^ 32, ?_, ?_, ?_⟩
  · obtain ⟨b', e, _⟩ := h.step_small (m := m) (op := .createVector (.sc t) items) (by
      simp only [stepA, withRetA]
      rw [createVector_eq hs']; rfl) hlen
    exact ⟨b', e⟩
  · obtain ⟨b', e, _⟩ := h.step_small (m := m) (op := .createVectorDirect t items) (by
      simp only [stepA, withRetA]
      rw [createVectorDirect_eq hn hs']; rfl) hlen
    exact ⟨b', e⟩
  · obtain ⟨rets, f⟩ := manualVector_eq (m := m) hl hn hs'
    obtain ⟨b', e, _⟩ := h.run_small f (by
      intro op ho
      simp only [manualVector, List.mem_cons, List.mem_append, List.mem_map, List.mem_nil_iff, or_false] at ho
      rcases ho with rfl | ⟨x, _, rfl⟩ | rfl <;> rfl) hlen
    exact ⟨rets, b', e⟩

/-- Concrete case: a state that is not nested, with data of odd length, and a vector that needs padding. -/
example (m : Mode) : ∃ b, Reachable m b ∧ b.nested = false ∧ b.usedSpace = 1 ∧
    b.usedSpace + [u16c 5, u16c 300, u16c 65535].length * STy.u16.size + 32 ≤ 2 ^ 31 - 2 ^ 17 := by
  obtain ⟨b, hb, _, p⟩ := fromNew_reachable (m := m) (cap := 64) (ops := [.push _ (u8c 7)])
    (p := fun r => r.2.usedSpace == 1 && !r.2.nested) (by cases m <;> decide)
  simp only [Bool.and_eq_true, beq_iff_eq, Bool.not_eq_true'] at p
  exact ⟨b, hb, p.2, p.1, by rw [p.1]; decide⟩

end Butte
