import Verif.Gen.Cut
import Verif.Props.Iter
/-
Property C115: messages that have been cut off, and messages with other bytes after them.
-/
namespace Butte
open Gen

/-! ### Reads -/

/-- **C115**, a single read: `follow` of any type either finds the bytes too short, or does on the bytes with anything after them what it does on
the bytes alone. A table, vector or vtable is then the one at the same place of the longer buffer (`FTy.grow`). -/
theorem C115_follow (m : Mode) (f : FTy) (buf more : Bytes) (loc : Nat) :
    f.follow m buf loc = .err .outOfBounds ∨
      f.follow m (buf ++ more) loc = (f.follow m buf loc >>= fun x => .ok (f.grow more x)) :=
  (follow_cut m more f buf loc).mapped

/-- **C115** for the calls on a vtable. -/
theorem C115_vtable (m : Mode) (v : VTable) (more : Bytes) (i : Nat) :
    (v.numBytes m = .err .outOfBounds ∨ (v.grow more).numBytes m = v.numBytes m) ∧
    (v.numFields m = .err .outOfBounds ∨ (v.grow more).numFields m = v.numFields m) ∧
    (v.objectInlineNumBytes m = .err .outOfBounds ∨ (v.grow more).objectInlineNumBytes m = v.objectInlineNumBytes m) ∧
    (v.getField m i = .err .outOfBounds ∨ (v.grow more).getField m i = v.getField m i) ∧
    (v.get m i = .err .outOfBounds ∨ (v.grow more).get m i = v.get m i) ∧
    (v.asBytes m = .err .outOfBounds ∨ (v.grow more).asBytes m = v.asBytes m) :=
  ⟨(VTable.numBytes_cut m more v).same, (VTable.numFields_cut m more v).same, (VTable.objectInlineNumBytes_cut m more v).same,
    (VTable.getField_cut m more v i).same, (VTable.get_cut m more v i).same, (VTable.asBytes_cut m more v).same⟩

/-- **C115** for `Table::get`. -/
theorem C115_table_get (m : Mode) (t : Table) (more : Bytes) (f : FTy) (slot : Nat) (d : Option f.Inner) :
    t.get m f slot d = .err .outOfBounds ∨
      (t.grow more).get m f slot (d.map (f.grow more)) = (t.get m f slot d >>= fun x => .ok (x.map (f.grow more))) :=
  (Table.get_cut m more t f slot d).mapped

/-- **C115** for the calls on a vector, other than `iter`. -/
theorem C115_vector (m : Mode) {e : FTy} (v : Vec e) (more : Bytes) (i : Nat) :
    (v.len m = .err .outOfBounds ∨ (v.grow more).len m = v.len m) ∧
    (v.isEmpty m = .err .outOfBounds ∨ (v.grow more).isEmpty m = v.isEmpty m) ∧
    (v.get m i = .err .outOfBounds ∨ (v.grow more).get m i = (v.get m i >>= fun x => .ok (e.grow more x))) :=
  ⟨(Vec.len_cut m more v).same, (Cut.bindSame (Vec.len_cut m more v) fun _ => .refl _).same, (Vec.get_cut m more v i).mapped⟩

/-- **C115** for `safe_slice`. -/
theorem C115_safe_slice (m : Mode) {t : STy} (v : Vec (.scalar t)) (more : Bytes) :
    v.safeSlice m = .err .outOfBounds ∨ (v.grow more).safeSlice m = v.safeSlice m := (Vec.safeSlice_cut m more v).same

/-- **C115** for `buffer_has_identifier`. -/
theorem C115_identifier (m : Mode) (data more ident : Bytes) (sp : Bool) :
    bufferHasIdentifier m data ident sp = .err .outOfBounds ∨
      bufferHasIdentifier m (data ++ more) ident sp = bufferHasIdentifier m data ident sp :=
  (bufferHasIdentifier_cut m data more ident sp).same

/-- **C115** for the generated accessors. -/
theorem C115_accessor (m : Mode) (t : Table) (more : Bytes) (fs : List GField) (f : GField) :
    accessor m t fs f = .err .outOfBounds ∨
      accessor m (t.grow more) fs f = (accessor m t fs f >>= fun x => .ok (x.map (f.kind.grow more))) :=
  (accessor_cut m more t fs f).mapped

/-! ### Whole messages -/

/-- Read a whole message from its root, through the generated accessors. -/
def readRoot (gm m : Mode) (S : Tables) (k : Nat) (q : Ir.QIdent) (sized : Bool) (data : Bytes) : Res Val := do
  let t ← if sized then Table.getSizePrefixedRoot m data else Table.getRoot m data
  readVal gm m S k (.table q) (.fwdU .table) t

theorem readRoot_cut (gm m : Mode) (S : Tables) (k : Nat) (q : Ir.QIdent) (sized : Bool) (data more : Bytes) :
    Cut Eq (readRoot gm m S k q sized data) (readRoot gm m S k q sized (data ++ more)) := by
  cases sized with
  | true =>
    exact .bind (follow_cut m more (.skipSize (.fwdU .table)) data 0) fun a b h => by
      subst h; exact readVal_cut gm m S more k (.table q) (.fwdU .table) a
  | false =>
    exact .bind (follow_cut m more (.fwdU .table) data 0) fun a b h => by
      subst h; exact readVal_cut gm m S more k (.table q) (.fwdU .table) a

/-- **C115** A message of which only the first `n` bytes are there is not misread: reading it in full fails because bytes are missing, or
has the outcome that it has on the whole message. -/
theorem C115_message_partial (gm m : Mode) (S : Tables) (k : Nat) (q : Ir.QIdent) (sized : Bool) (data : Bytes) (n : Nat) :
    readRoot gm m S k q sized (data.take n) = .err .outOfBounds ∨
      readRoot gm m S k q sized (data.take n) = readRoot gm m S k q sized data := by
  have h := (readRoot_cut gm m S k q sized (data.take n) (data.drop n)).same
  rw [List.take_append_drop] at h
  exact h.imp id Eq.symm

/-- **C115** Bytes after a message do not matter. -/
theorem C115_more (gm m : Mode) (S : Tables) (k : Nat) (q : Ir.QIdent) (sized : Bool) (data more : Bytes) (v : Val)
    (h : readRoot gm m S k q sized data = .ok v) : readRoot gm m S k q sized (data ++ more) = .ok v := by
  rcases (readRoot_cut gm m S k q sized data more).same with h1 | h1
  · rw [h] at h1
    cases h1
  · rw [h1, h]

/-! ### Iterators -/

theorem next_none_cut {m : Mode} {e : FTy} {it it' : VIter e} {more : Bytes} (h : (it.grow more).next m = .ok (none, it')) :
    it.next m = .ok (none, it) := by
  unfold VIter.next at h ⊢
  obtain ⟨u, h1, h⟩ := Res.bind_eq_ok.mp h
  rw [h1]
  change (if it.remaining = 0 then _ else _) = _ at h
  change (if it.remaining = 0 then _ else _) = _
  by_cases hr : it.remaining = 0
  · rw [if_pos hr]
    rfl
  · rw [if_neg hr] at h
    obtain ⟨r, _, h⟩ := Res.bind_eq_ok.mp h
    obtain ⟨l, _, h⟩ := Res.bind_eq_ok.mp h
    cases h

theorem next_some_cut {m : Mode} {e : FTy} {it jt : VIter e} {more : Bytes} {y : Except Error e.Inner}
    (h : (it.grow more).next m = .ok (some y, jt)) :
    ∃ x it', it.next m = .ok (some x, it') ∧ jt = it'.grow more ∧ CutItem more x y := by
  unfold VIter.next at h ⊢
  obtain ⟨u, h1, h⟩ := Res.bind_eq_ok.mp h
  rw [h1]
  change (if it.remaining = 0 then _ else _) = _ at h
  change ∃ x it', (if it.remaining = 0 then _ else _) = _ ∧ _
  by_cases hr : it.remaining = 0
  · rw [if_pos hr] at h
    cases h
  · rw [if_neg hr] at h ⊢
    obtain ⟨r, h2, h⟩ := Res.bind_eq_ok.mp h
    obtain ⟨l, h3, h⟩ := Res.bind_eq_ok.mp h
    cases h
    rcases follow_item m more (e := e) it.buf it.loc with h4 | ⟨x, y', hx, hy, hc⟩
    · change VIter.item (e.follow m (it.buf ++ more) it.loc) = _ at h2
      rw [h4] at h2
      cases h2
    · change VIter.item (e.follow m (it.buf ++ more) it.loc) = _ at h2
      rw [hy] at h2
      cases h2
      change addU m it.loc e.size = .ok l at h3
      refine ⟨x, { it with loc := l, remaining := it.remaining - 1 }, ?_, rfl, hc⟩
      rw [hx, Res.ok_bind, h3]
      rfl

theorem collects_cut {m : Mode} {e : FTy} {more : Bytes} {jt : VIter e} {ys : List (Except Error e.Inner)} (h : Collects m jt ys) :
    ∀ it : VIter e, jt = it.grow more → ∃ xs, Collects m it xs ∧ List.Forall₂ (CutItem more) xs ys := by
  induction h with
  | done h =>
    intro it e
    subst e
    exact ⟨[], .done (next_none_cut h), .nil⟩
  | more h _ ih =>
    intro it e
    subst e
    obtain ⟨x, it', h1, h2, h3⟩ := next_some_cut h
    obtain ⟨xs, h4, h5⟩ := ih it' h2
    exact ⟨x :: xs, .more h1 h4, .cons h3 h5⟩

/-- **C115** for iterating, where the length is still there: as many items are handed out, and each is what it is in the whole message or an
error because of the missing bytes. -/
theorem C115_iterate_partial (m : Mode) {e : FTy} (v : Vec e) (more : Bytes) (n : Nat) (hn : v.len m = .ok n) (jt : VIter e)
    (ys : List (Except Error e.Inner)) (hj : (v.grow more).iter m = .ok jt) (hy : Collects m jt ys) :
    ∃ it xs, v.iter m = .ok it ∧ Collects m it xs ∧ xs.length = ys.length ∧
      ∀ (i : Nat) x y, xs[i]? = some x → ys[i]? = some y → x = .error .outOfBounds ∨ y = x.map (e.grow more) := by
  have hn' : (v.grow more).len m = .ok n := by
    rcases (Vec.len_cut m more v).same with h | h
    · rw [hn] at h
      cases h
    · rw [h, hn]
  unfold Vec.iter VIter.new at hj ⊢
  rw [hn'] at hj
  rw [hn]
  simp only [Res.unwrapOr, Res.ok_bind] at hj ⊢
  obtain ⟨l, h1, hj⟩ := Res.bind_eq_ok.mp hj
  change addU m v.loc 4 = .ok l at h1
  cases hj
  obtain ⟨xs, h2, h3⟩ := collects_cut hy (⟨v.buf, l, n⟩ : VIter e) rfl
  refine ⟨⟨v.buf, l, n⟩, xs, by rw [h1]; rfl, h2, h3.length_eq, ?_⟩
  intro i x y hx hy
  obtain ⟨hi, rfl⟩ := List.getElem?_eq_some_iff.mp hx
  obtain ⟨hi', rfl⟩ := List.getElem?_eq_some_iff.mp hy
  exact List.Forall₂.get h3 hi hi'

/-- **C115** A vector whose length cannot be read has no items, for `iter` (vector.rs 76-81). -/
theorem C115_iterate_short (m : Mode) {e : FTy} (v : Vec e) (er : Error) (hz : 0 < e.size) (hn : v.len m = .err er) (it : VIter e)
    (hi : v.iter m = .ok it) : Collects m it [] := by
  unfold Vec.iter VIter.new at hi
  rw [hn] at hi
  simp only [Res.unwrapOr, Res.ok_bind] at hi
  obtain ⟨l, _, hi⟩ := Res.bind_eq_ok.mp hi
  cases hi
  refine .done (it' := ⟨v.buf, l, 0⟩) ?_
  unfold VIter.next
  rw [debugAssert_true m (c := decide (0 < e.size)) (by simpa using hz)]
  rfl

/-! ### The refutation -/

/-- A message of a table `table T { a: [ubyte]; }` with the vector `[7]`. -/
def sevens : Bytes := [12, 0, 0, 0, 6, 0, 8, 0, 4, 0, 0, 0, 8, 0, 0, 0, 4, 0, 0, 0, 1, 0, 0, 0, 7]

/-- The field `a: [ubyte]`. -/
def fieldA : GField := ⟨c!"a", 4, .ref (.vector (.scalar .u8)), false⟩

/-- **C115 is false of the code** for iterating: if the message is cut off in front of the vector, the accessor still returns a vector and
`iter` hands out nothing, without an error; in the whole message it has an item. -/
theorem C115_refuted (m : Mode) : ∃ (t t' : Table) (v v' : Vec (.scalar .u8)) (it it' : VIter (.scalar .u8)),
    Table.getRoot m (sevens.take 20) = .ok t ∧ accessor m t [fieldA] fieldA = .ok (some v) ∧ v.iter m = .ok it ∧ Collects m it [] ∧
    Table.getRoot m sevens = .ok t' ∧ accessor m t' [fieldA] fieldA = .ok (some v') ∧ v'.iter m = .ok it' ∧
    Collects m it' [.ok (7 : Fin 256)] := by
  refine ⟨⟨sevens.take 20, 12⟩, ⟨sevens, 12⟩, ⟨sevens.take 20, 20⟩, ⟨sevens, 20⟩, ⟨sevens.take 20, 24, 0⟩, ⟨sevens, 24, 1⟩, ?_⟩
  cases m <;>
  exact ⟨rfl, rfl, rfl, .done (it' := ⟨sevens.take 20, 24, 0⟩) rfl, rfl, rfl, rfl,
    .more (it' := ⟨sevens, 25, 0⟩) rfl (.done (it' := ⟨sevens, 25, 0⟩) rfl)⟩

/-! ### Examples -/

/-- `table T { a: [ubyte]; }`. -/
def cutSchema : Tables := fun q => if q = [c!"T"] then some ⟨[c!"T"], [⟨c!"a", .array (.builtin .ubyte), none, false, []⟩], false, []⟩ else none

/-- The message is read, also with bytes after it; without its last byte, or without the vector, it is not. -/
example (gm m : Mode) :
    readRoot gm m cutSchema 3 [c!"T"] false sevens = .ok (.table [some (.vec [.bits 7])]) ∧
    readRoot gm m cutSchema 3 [c!"T"] false (sevens ++ [1, 2, 3]) = .ok (.table [some (.vec [.bits 7])]) ∧
    readRoot gm m cutSchema 3 [c!"T"] false (sevens.take 24) = .err .outOfBounds ∧
    readRoot gm m cutSchema 3 [c!"T"] false (sevens.take 20) = .err .outOfBounds ∧
    readRoot gm m cutSchema 3 [c!"T"] true (([25, 0, 0, 0] : Bytes) ++ sevens) = .ok (.table [some (.vec [.bits 7])]) := by
  cases gm <;> cases m <;> exact ⟨rfl, rfl, rfl, rfl, rfl⟩

/-- Without its last byte the message has a vector with one item, which cannot be read. -/
example (m : Mode) : Vec.len m (⟨sevens.take 24, 20⟩ : Vec (.scalar .u8)) = .ok 1 ∧
    ∃ it, Vec.iter m (⟨sevens.take 24, 20⟩ : Vec (.scalar .u8)) = .ok it ∧ Collects m it [.error .outOfBounds] := by
  cases m <;> exact ⟨rfl, ⟨sevens.take 24, 24, 1⟩, rfl, .more (it' := ⟨sevens.take 24, 25, 0⟩) rfl (.done (it' := ⟨sevens.take 24, 25, 0⟩) rfl)⟩

/-- Cut off in the middle of its length, it cannot be read. -/
example (m : Mode) : Vec.len m (⟨sevens.take 22, 20⟩ : Vec (.scalar .u8)) = .err .outOfBounds := by cases m <;> rfl

end Butte
