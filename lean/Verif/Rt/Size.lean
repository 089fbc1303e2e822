import Verif.Rt.Finish
import Verif.Rt.Growth
/-
How many bytes each call of the builder adds to the data: lemmas for C117.
-/
namespace Butte

/-- What is stored of the strings at least: the bytes, four for the length, and the zero at the end. -/
def leastStrings : List String → Nat
  | [] => 0
  | s :: ss => (Builder.strBytes s).length + 5 + leastStrings ss

/-- The same with at most three bytes of padding for each. -/
def mostStrings : List String → Nat
  | [] => 0
  | s :: ss => (Builder.strBytes s).length + 8 + mostStrings ss

/-- The bytes the call adds at least: those of the values it is given. -/
def Op.least : Op → Nat
  | .push p _ | .pushSlotAlways _ p _ => p.size
  | .pushSlot .. | .startTable | .startVector .. | .required .. | .reset => 0
  | .endTable _ | .endVector _ => 4
  | .createString s => (Builder.strBytes s).length + 5
  | .createByteString bs => bs.length + 5
  | .createVectorDirect t xs => xs.length * t.size + 4
  | .createVector p xs => xs.length * p.size + 4
  | .createVectorOfStrings xs => leastStrings xs + xs.length * 4 + 4
  | .finish _ i sp => 4 + (if sp then 4 else 0) + (if i.isSome then 4 else 0)

/-- The bytes the call adds at most, if no slot beyond `k` is used: there are at most seven bytes of padding, and the end of
a table adds its vtable. -/
def Op.most (k : Nat) : Op → Nat
  | .push p _ | .pushSlot _ p _ _ | .pushSlotAlways _ p _ => 2 * p.size - 1
  | .startTable | .required .. | .reset => 0
  | .endTable _ => k + 2 + 7
  | .startVector .. | .endVector _ => 7
  | .createString s => (Builder.strBytes s).length + 8
  | .createByteString bs => bs.length + 8
  | .createVectorDirect t xs => xs.length * t.size + 11
  | .createVector p xs => xs.length * p.size + 11
  | .createVectorOfStrings xs => mostStrings xs + xs.length * 4 + 7
  | .finish _ i sp => 4 + (if sp then 4 else 0) + (if i.isSome then 4 else 0) + 7

variable {m : Mode}

theorem addU_lt {x y s : Nat} (h : addU m x y = .ok s) : s < 2 ^ 64 := by
  by_cases hlt : x + y < 2 ^ 64
  · rw [addU_ok hlt] at h; cases h; exact hlt
  · unfold addU addW at h
    rw [if_neg hlt] at h
    cases m with
    | debug => cases h
    | release => cases h; exact Nat.mod_lt _ (by decide)

theorem align_size {a a' : ABuilder} {l al : Nat} (h : a.align m l al = .ok a') (ha : ∃ k, k < 64 ∧ al = 2 ^ k) :
    a.data.length ≤ a'.data.length ∧ a'.data.length < a.data.length + al := by
  unfold ABuilder.align at h
  obtain ⟨s, hs, h⟩ := Res.bind_eq_ok.mp h
  cases h
  have := padding_lt (addU_lt hs) ha
  simp only [List.length_append, List.length_replicate]
  omega

theorem push_size {a a' : ABuilder} {p : PTy} {x : PVal p} {o : Nat} (h : a.push m x = .ok (o, a')) :
    a.data.length + p.size ≤ a'.data.length ∧ a'.data.length + 1 ≤ a.data.length + 2 * p.size := by
  have h0 := push_len_le h
  unfold ABuilder.push at h
  obtain ⟨a1, h1, h⟩ := Res.bind_eq_ok.mp h
  obtain ⟨bs, h2, h⟩ := Res.bind_eq_ok.mp h
  cases h
  have h1 := align_size h1 p.size_p2
  have h2 := PVal.pushBytes_length h2
  simp only [ABuilder.prepend, List.length_append] at h0 ⊢
  unfold PTy.align at h1
  omega

theorem createByteString_size {a a' : ABuilder} {bs : Bytes} {o : Nat} (h : a.createByteString m bs = .ok (o, a'))
    (hs : a'.data.length < 2 ^ 32) :
    a.data.length + (bs.length + 5) ≤ a'.data.length ∧ a'.data.length ≤ a.data.length + (bs.length + 8) := by
  have hl := (createByteString_ext h).len
  obtain ⟨-, -, e⟩ := createByteString_spec h hs
  have hsz : a'.data.length = 4 + (bs.length + 1) + (paddingBytes (a.data.length + (bs.length + 1)) 4 + a.data.length) := by
    rw [e]; simp [strObj, leBytes_length]; omega
  have := padding_lt (n := a.data.length + (bs.length + 1)) (by omega) pow2_4
  omega

theorem createString_size {a a' : ABuilder} {s : String} {o : Nat} (h : a.createString m s = .ok (o, a'))
    (hs : a'.data.length < 2 ^ 32) : a.data.length + ((Builder.strBytes s).length + 5) ≤ a'.data.length ∧
      a'.data.length ≤ a.data.length + ((Builder.strBytes s).length + 8) := by
  obtain ⟨_, -, h⟩ := Res.bind_eq_ok.mp h
  exact createByteString_size h hs

theorem createVector_size {a a' : ABuilder} {p : PTy} {items : List (PVal p)} {o : Nat}
    (h : a.createVector m items = .ok (o, a')) (hs : a'.data.length < 2 ^ 32) :
    a.data.length + (items.length * p.size + 4) ≤ a'.data.length ∧
      a'.data.length + 1 ≤ a.data.length + (items.length * p.size + 4 + max p.size 4) := by
  unfold ABuilder.createVector at h
  obtain ⟨n, hn, h⟩ := Res.bind_eq_ok.mp h
  obtain ⟨a1, h1, h⟩ := Res.bind_eq_ok.mp h
  obtain ⟨a2, h2, h3⟩ := Res.bind_eq_ok.mp h
  have hsz32 : (PTy.sc STy.u32).size = 4 := rfl
  have hl3 := push_len_le h3
  have hl2 := pushAll_len h2
  have hl1 := (align_ext h1).len
  rw [hsz32] at hl3
  simp only [List.length_reverse, Nat.mul_comm p.size] at hl2
  rw [mulU_ok (by omega)] at hn
  injection hn with hn
  subst hn
  have e1 := align_spec h1 (by omega)
  obtain ⟨hp2, hd1, hd4, hle8⟩ := p.max4
  have hmod := padding_dvd (n := a.data.length + items.length * p.size) (by omega) hp2
  have hlt := padding_lt (n := a.data.length + items.length * p.size) (by omega) hp2
  simp only [PTy.align] at e1
  generalize hpad : paddingBytes (a.data.length + items.length * p.size) (max p.size 4) = pad at *
  have hl : a1.data.length = pad + a.data.length := by rw [e1]; simp
  have hm1 : (a1.data.length + items.length * p.size) % max p.size 4 = 0 := by rw [hl, ← hmod]; congr 1; omega
  have hmp : (a1.data.length + items.length * p.size) % p.size = 0 :=
    Nat.mod_eq_zero_of_dvd (Nat.dvd_trans hd1 (Nat.dvd_of_mod_eq_zero hm1))
  have hm4 : (a1.data.length + items.length * p.size) % 4 = 0 :=
    Nat.mod_eq_zero_of_dvd (Nat.dvd_trans hd4 (Nat.dvd_of_mod_eq_zero hm1))
  have hmp' : a1.data.length % p.size = 0 := by
    rw [Nat.add_mul_mod_self_right] at hmp; exact hmp
  obtain ⟨f1, -⟩ := pushAll_spec h2 hmp' (by omega)
  simp only [List.length_reverse] at f1
  rw [Nat.mul_comm p.size] at f1
  rw [push_aligned (by rw [hsz32, f1]; omega) (by omega)] at h3
  obtain ⟨bs, hb, h3⟩ := Res.bind_eq_ok.mp h3
  have hb := PVal.pushBytes_length hb
  cases h3
  simp only [List.length_append] at hs ⊢
  rw [hsz32] at hb
  omega

theorem flatten_size {t : STy} : ∀ items : List (SVal t), ((items.map SVal.bytes).flatten).length = items.length * t.size
  | [] => by simp
  | x :: xs => by
    rw [List.map_cons, List.flatten_cons, List.length_append, flatten_size xs, List.length_cons, SVal.bytes_length, Nat.add_mul]
    omega

theorem createVectorDirect_size {a a' : ABuilder} {t : STy} {items : List (SVal t)} {o : Nat}
    (h : a.createVectorDirect m items = .ok (o, a')) (hs : a'.data.length < 2 ^ 32) :
    a.data.length + (items.length * t.size + 4) ≤ a'.data.length ∧
      a'.data.length ≤ a.data.length + (items.length * t.size + 11) := by
  unfold ABuilder.createVectorDirect at h
  obtain ⟨_, -, h⟩ := Res.bind_eq_ok.mp h
  obtain ⟨n, hn, h⟩ := Res.bind_eq_ok.mp h
  obtain ⟨a1, h1, h3⟩ := Res.bind_eq_ok.mp h
  have hsz32 : (PTy.sc STy.u32).size = 4 := rfl
  have hl3 := push_len_le h3
  have hl1 := (align_ext h1).len
  have hfl := flatten_size items
  simp only [ABuilder.prepend, List.length_append, hfl, hsz32] at hl3
  rw [mulU_ok (by omega)] at hn
  injection hn with hn
  subst hn
  have e1 := align_spec h1 (by omega)
  obtain ⟨hp2, hd1, hd4, hle8⟩ := (PTy.sc t).max4
  have hsz : (PTy.sc t).size = t.size := rfl
  rw [hsz] at hp2 hd1 hd4 hle8
  have hmod := padding_dvd (n := a.data.length + items.length * t.size) (by omega) hp2
  have hlt := padding_lt (n := a.data.length + items.length * t.size) (by omega) hp2
  generalize hpad : paddingBytes (a.data.length + items.length * t.size) (max t.size 4) = pad at *
  have hl : a1.data.length = pad + a.data.length := by rw [e1]; simp
  have hm1 : (a1.data.length + items.length * t.size) % max t.size 4 = 0 := by rw [hl, ← hmod]; congr 1; omega
  have hm4 : (a1.data.length + items.length * t.size) % 4 = 0 :=
    Nat.mod_eq_zero_of_dvd (Nat.dvd_trans hd4 (Nat.dvd_of_mod_eq_zero hm1))
  have hl2 : (a1.prepend (items.map SVal.bytes).flatten).data.length = a1.data.length + items.length * t.size := by
    simp only [ABuilder.prepend, List.length_append, hfl]; omega
  rw [push_aligned (by rw [hl2, hsz32]; omega) (by rw [hl2, hsz32]; omega)] at h3
  obtain ⟨bs, hb, h3⟩ := Res.bind_eq_ok.mp h3
  have hb := PVal.pushBytes_length hb
  cases h3
  simp only [List.length_append] at hs ⊢
  rw [hsz32] at hb
  obtain ⟨k, hk, ek⟩ := t.size_pow2
  have : t.size ≤ 8 := by rw [ek]; exact Nat.pow_le_pow_right (n := 2) (by omega) hk
  omega

theorem createStrings_size : ∀ {xs : List String} {a a' : ABuilder} {acc offs : List (PVal .off)},
    a.createStrings m xs acc = .ok (offs, a') → a'.data.length < 2 ^ 32 →
    a.data.length + leastStrings xs ≤ a'.data.length ∧ a'.data.length ≤ a.data.length + mostStrings xs ∧
      offs.length = xs.length + acc.length
  | [], a, a', acc, offs, h, _ => by cases h; simp [leastStrings, mostStrings]
  | s :: xs, a, a', acc, offs, h, hs => by
    unfold ABuilder.createStrings at h
    obtain ⟨⟨o, a1⟩, h1, h⟩ := Res.bind_eq_ok.mp h
    obtain ⟨g1, g2, g3⟩ := createStrings_size h hs
    have := createString_size h1 (by omega)
    simp only [leastStrings, mostStrings, List.length_cons] at g3 ⊢
    omega

theorem leastStrings_append : ∀ xs ys : List String, leastStrings (xs ++ ys) = leastStrings xs + leastStrings ys
  | [], ys => by simp [leastStrings]
  | x :: xs, ys => by simp only [List.cons_append, leastStrings, leastStrings_append xs ys]; omega

theorem mostStrings_append : ∀ xs ys : List String, mostStrings (xs ++ ys) = mostStrings xs + mostStrings ys
  | [], ys => by simp [mostStrings]
  | x :: xs, ys => by simp only [List.cons_append, mostStrings, mostStrings_append xs ys]; omega

theorem leastStrings_reverse : ∀ xs : List String, leastStrings xs.reverse = leastStrings xs
  | [] => rfl
  | x :: xs => by rw [List.reverse_cons, leastStrings_append, leastStrings_reverse xs]; simp only [leastStrings]; omega

theorem mostStrings_reverse : ∀ xs : List String, mostStrings xs.reverse = mostStrings xs
  | [] => rfl
  | x :: xs => by rw [List.reverse_cons, mostStrings_append, mostStrings_reverse xs]; simp only [mostStrings]; omega

theorem createVectorOfStrings_size {a a' : ABuilder} {xs : List String} {o : Nat}
    (h : a.createVectorOfStrings m xs = .ok (o, a')) (hs : a'.data.length < 2 ^ 32) :
    a.data.length + (leastStrings xs + xs.length * 4 + 4) ≤ a'.data.length ∧
      a'.data.length ≤ a.data.length + (mostStrings xs + xs.length * 4 + 7) := by
  unfold ABuilder.createVectorOfStrings at h
  obtain ⟨_, -, h⟩ := Res.bind_eq_ok.mp h
  obtain ⟨⟨offs, a1⟩, h1, h⟩ := Res.bind_eq_ok.mp h
  have h2 := createVector_size h hs
  obtain ⟨g1, g2, g3⟩ := createStrings_size h1 (by omega)
  rw [leastStrings_reverse] at g1
  rw [mostStrings_reverse] at g2
  have hsz : PTy.off.size = 4 := rfl
  simp only [List.length_reverse, List.length_nil] at g3
  rw [hsz, g3] at h2
  omega

theorem endTable_size {k : Nat} (hk : 2 ≤ k) {a a' : ABuilder} {tail o : Nat} (h : a.endTable m tail = .ok (o, a'))
    (hf : ∀ f ∈ a.fieldLocs, f.id ≤ k) (hs : a'.data.length < 2 ^ 32) :
    a.data.length + 4 ≤ a'.data.length ∧ a'.data.length ≤ a.data.length + (k + 2 + 7) := by
  have hl0 := (endTable_ext h hs).len
  unfold ABuilder.endTable at h
  obtain ⟨_, _, h⟩ := Res.bind_eq_ok.mp h
  obtain ⟨⟨o', a1⟩, h1, h⟩ := Res.bind_eq_ok.mp h
  cases h
  simp only at hs hl0 ⊢
  obtain ⟨vt, vtUse, post, hp, -, hv, -, -, -, -, hd⟩ := writeVTable_spec h1 hs
  have hpad := padding_lt (n := a.data.length + 4) (by omega) pow2_4
  have hpl : post.length = paddingBytes (a.data.length + 4) 4 + a.data.length := by rw [hp]; simp
  have hvl : vt.length ≤ k + 2 := by
    rw [vtableBytes_length hv]; exact Builder.vtableByteLen_le hk hf
  rcases hd with ⟨-, -, hd, -⟩ | ⟨-, -, hd, -⟩ <;> rw [hd] <;>
    simp only [List.length_append, leBytes_length] <;> omega

theorem finish_size {a a' : ABuilder} {root : Nat} {ident : Option Bytes} {sp : Bool}
    (h : a.finishWithOpts m root ident sp = .ok a') (hma : MAOk a.minAlign)
    (hi : ∀ i, ident = some i → i.length = 4) (hs : a'.data.length < 2 ^ 32) :
    a.data.length + (4 + (if sp then 4 else 0) + (if ident.isSome then 4 else 0)) ≤ a'.data.length ∧
    a'.data.length ≤ a.data.length + (4 + (if sp then 4 else 0) + (if ident.isSome then 4 else 0) + 7) := by
  obtain ⟨pad1, pad2, offb, d3, g1, -, g3, g4, g5, -, -, -, -, -, -, -, g6, g7⟩ := finish_spec h hma hi hs
  have hid : (ident.getD []).length = if ident.isSome then 4 else 0 := by
    cases ident with
    | none => rfl
    | some i => exact hi i rfl
  have hl : a'.data.length = (if sp then 4 else 0) + (4 + (pad2 + ((if ident.isSome then 4 else 0) + (pad1 + a.data.length)))) := by
    rw [g4, List.length_append, List.length_append, g3, g1, List.length_append, List.length_append, List.length_append,
      List.length_replicate, List.length_replicate, hid]
    cases sp <;> simp [leBytes_length]
  have : pad1 + pad2 ≤ 7 := by
    rcases hma with h0 | h0 | h0 | h0 | h0 <;> rw [h0] at g5 g6 <;> omega
  omega

/-- The identifier of a `finish` call has four bytes (in debug mode others panic). -/
def Op.ident4 : Op → Prop
  | .finish _ (some i) _ => i.length = 4
  | _ => True

theorem stepA_size {k : Nat} (hk : 2 ≤ k) {a a' : ABuilder} {op : Op} {r : Option Nat} (h : stepA m a op = .ok (r, a'))
    (hr : op.isReset = false) (hf : ∀ f ∈ a.fieldLocs, f.id ≤ k) (hma : MAOk a.minAlign) (hi : op.ident4)
    (hs : a'.data.length < 2 ^ 32) :
    a.data.length + op.least ≤ a'.data.length ∧ a'.data.length ≤ a.data.length + op.most k := by
  cases op <;> simp only [stepA, withRetA, noRetA] at h
  case reset => cases hr
  case required => obtain ⟨_, _, h⟩ := Res.bind_eq_ok.mp h; cases h; simp [Op.least, Op.most]
  all_goals
    obtain ⟨r1, h1, h⟩ := Res.bind_eq_ok.mp h; cases h
    simp only [Op.least, Op.most]
  case push p x => have := push_size h1; omega
  case pushSlotAlways s p x =>
    obtain ⟨_, -, h1⟩ := Res.bind_eq_ok.mp h1
    obtain ⟨⟨_, _⟩, h2, h1⟩ := Res.bind_eq_ok.mp h1
    cases h1
    have := push_size h2; simp only; omega
  case pushSlot s p x d =>
    obtain ⟨_, -, h1⟩ := Res.bind_eq_ok.mp h1
    split at h1
    · cases h1; omega
    · obtain ⟨_, -, h1⟩ := Res.bind_eq_ok.mp h1
      obtain ⟨⟨_, _⟩, h2, h1⟩ := Res.bind_eq_ok.mp h1
      cases h1
      have := push_size h2; simp only; omega
  case startTable =>
    obtain ⟨_, -, h1⟩ := Res.bind_eq_ok.mp h1
    cases h1; simp
  case endTable t => exact endTable_size hk h1 hf hs
  case startVector p n =>
    obtain ⟨_, -, h1⟩ := Res.bind_eq_ok.mp h1
    obtain ⟨_, -, h1⟩ := Res.bind_eq_ok.mp h1
    obtain ⟨hp2, -, -, hle⟩ := p.max4
    have := align_size h1 hp2
    simp only [PTy.align] at this
    omega
  case endVector n =>
    obtain ⟨_, -, h1⟩ := Res.bind_eq_ok.mp h1
    have := push_size h1
    have hsz32 : (PTy.sc STy.u32).size = 4 := rfl
    simp only [hsz32] at this
    omega
  case createString s => exact createString_size h1 hs
  case createByteString bs => exact createByteString_size h1 hs
  case createVectorDirect t xs => exact createVectorDirect_size h1 hs
  case createVector p xs =>
    have := createVector_size h1 hs
    obtain ⟨-, -, -, hle⟩ := p.max4
    omega
  case createVectorOfStrings xs => exact createVectorOfStrings_size h1 hs
  case finish r i sp => exact finish_size h1 hma (by rintro i rfl; exact hi) hs

end Butte
