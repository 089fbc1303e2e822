import Verif.Rt.Builder
/-
Memory that is not initialised: the `SmallVec` of `create_vector_of_strings` (builder.rs 290-309). Its length is set before its items
are written. Here the items are cells that hold a value or nothing yet, and reading a cell with nothing in it has no defined result.
-/
namespace Butte
namespace Builder

/-- The storage of a `SmallVec<[WIPOffset; N]>`: `none` is a cell that was never written. -/
abbrev Cells := List (Option (PVal .off))

/-- builder.rs 30: the number of items the vector holds without allocating. -/
def smallCapacity : Nat := 16

/-- smallvec: `with_capacity(n)` makes room for `n` items, and for at least 16; nothing is written. -/
def cellsWithCapacity (n : Nat) : Cells := List.replicate (max smallCapacity n) none

/-- smallvec: `set_len(n)`, allowed up to the capacity; what is left is the slice of the first `n` cells. Outside of that it has no
defined result (`none`). -/
def setLen (c : Cells) (n : Nat) : Option Cells := if n ≤ c.length then some (c.take n) else none

/-- builder.rs 304-307: `for (i, &s) in xs.iter().enumerate().rev() { let o = self.create_string(s); offsets[i] = o; }`, the items
below `i` being left to do. -/
def fill (m : Mode) (xs : List String) : Nat → Builder → Cells → Res (Cells × Builder)
  | 0, b, c => .ok (c, b)
  | i + 1, b, c =>
    match xs[i]? with
    | none => .panic
    | some s => do
      let (o, b) ← createString m b s
      if i < c.length then fill m xs i b (c.set i (some (offVal o))) else .panic

/-- builder.rs 322-324: `for i in (0..items.len()).rev() { self.push(items[i]); }`, the items below `i` being left to do. Reading a
cell that was not written has no defined result. -/
def pushCells (m : Mode) : Nat → Builder → Cells → Option (Res Builder)
  | 0, b, _ => some (.ok b)
  | i + 1, b, c =>
    match c[i]? with
    | none => some .panic
    | some none => none
    | some (some x) =>
      match push m b x with
      | .ok (_, b) => pushCells m i b c
      | .err e => some (.err e)
      | .panic => some .panic

/-- builder.rs 316-326 `create_vector` on such a slice. -/
def createVectorCells (m : Mode) (b : Builder) (c : Cells) : Option (Res (Nat × Builder)) :=
  match (do
    let n ← mulU m c.length PTy.off.size
    align m b n (max PTy.off.align 4) : Res Builder) with
  | .ok b =>
    match pushCells m c.length b c with
    | none => none
    | some (.ok b) => some (push m b (PVal.sc (u32v c.length)))
    | some (.err e) => some (.err e)
    | some .panic => some .panic
  | .err e => some (.err e)
  | .panic => some .panic

/-- builder.rs 290-309 `create_vector_of_strings`; `none` where it has no defined result. -/
def createVectorOfStringsCells (m : Mode) (b : Builder) (xs : List String) : Option (Res (Nat × Builder)) :=
  match assertNotNested m b with
  | .ok _ =>
    match setLen (cellsWithCapacity xs.length) xs.length with
    | none => none
    | some c =>
      match fill m xs xs.length b c with
      | .ok (c, b) => createVectorCells m b c
      | .err e => some (.err e)
      | .panic => some .panic
  | .err e => some (.err e)
  | .panic => some .panic

/-! ### Lemmas -/

theorem setLen_withCapacity (n : Nat) : setLen (cellsWithCapacity n) n = some (List.replicate n none) := by
  unfold setLen cellsWithCapacity
  have : n ≤ max smallCapacity n := Nat.le_max_right _ _
  rw [if_pos (by simpa using this), List.take_replicate, Nat.min_eq_left this]

/-- The cells below `i` are empty, those from `i` on hold the offsets of the strings created so far. -/
theorem fill_eq (m : Mode) (xs : List String) : ∀ (i : Nat) (b : Builder) (acc : List (PVal .off)), i ≤ xs.length →
    fill m xs i b (List.replicate i none ++ acc.map some) =
      (createStrings m b (xs.take i).reverse acc >>= fun r => .ok (r.1.map some, r.2))
  | 0, b, acc, _ => rfl
  | i + 1, b, acc, h => by
    have hi : i < xs.length := h
    have ht : (xs.take (i + 1)).reverse = xs[i] :: (xs.take i).reverse := by
      rw [List.take_add_one, List.getElem?_eq_getElem hi]
      simp
    rw [fill, ht, createStrings, List.getElem?_eq_getElem hi]
    dsimp only
    cases createString m b xs[i] with
    | ok r =>
      simp only [Res.ok_bind]
      rw [if_pos (by simp; omega), ← fill_eq m xs i r.2 (offVal r.1 :: acc) (Nat.le_of_lt hi)]
      congr 1
      rw [List.set_append_left _ _ (by simp), List.replicate_succ', List.set_append_right _ _ (by simp)]
      simp
    | err e => rfl
    | panic => rfl

theorem pushCells_eq (m : Mode) (offs : List (PVal .off)) : ∀ (i : Nat) (b : Builder), i ≤ offs.length →
    pushCells m i b (offs.map some) = some (pushAll m b (offs.take i).reverse)
  | 0, _, _ => rfl
  | i + 1, b, h => by
    have hi : i < offs.length := h
    have ht : (offs.take (i + 1)).reverse = offs[i] :: (offs.take i).reverse := by
      rw [List.take_add_one, List.getElem?_eq_getElem hi]
      simp
    rw [pushCells, ht, pushAll, List.getElem?_map, List.getElem?_eq_getElem hi]
    simp only [Option.map_some]
    cases hp : push m b offs[i] with
    | ok r => simp only [Res.ok_bind]; exact pushCells_eq m offs i r.2 (Nat.le_of_lt hi)
    | err e => rfl
    | panic => rfl

theorem createVectorCells_eq (m : Mode) (b : Builder) (offs : List (PVal .off)) :
    createVectorCells m b (offs.map some) = some (createVector m b offs) := by
  unfold createVectorCells createVector
  simp only [List.length_map]
  cases mulU m offs.length PTy.off.size with
  | ok n =>
    simp only [Res.ok_bind]
    cases align m b n (max PTy.off.align 4) with
    | ok b =>
      simp only [Res.ok_bind]
      rw [pushCells_eq m offs offs.length b (Nat.le_refl _), List.take_length]
      cases pushAll m b offs.reverse <;> rfl
    | err e => rfl
    | panic => rfl
  | err e => rfl
  | panic => rfl

end Builder
end Butte
