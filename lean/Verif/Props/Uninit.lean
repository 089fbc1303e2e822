import Verif.Mem.Uninit
import Verif.Rt.Sample
/-
C97: no memory is read before it is written.
-/
namespace Butte
open Builder

/-- `create_vector_of_strings` has a defined result on every builder and for every list of strings: no item of its `SmallVec` is read
before it was written, and the length is set within the capacity. Its result is the one of the model without cells. -/
theorem C97_defined (m : Mode) (b : Builder) (xs : List String) :
    createVectorOfStringsCells m b xs = some (createVectorOfStrings m b xs) := by
  unfold createVectorOfStringsCells createVectorOfStrings
  cases assertNotNested m b with
  | ok u =>
    simp only [setLen_withCapacity, Res.ok_bind]
    have hf := fill_eq m xs xs.length b [] (Nat.le_refl _)
    rw [List.map_nil, List.append_nil, List.take_length] at hf
    rw [hf]
    cases createStrings m b xs.reverse [] with
    | ok r => exact createVectorCells_eq m r.2 r.1
    | err e => rfl
    | panic => rfl
  | err e => rfl
  | panic => rfl

/-- The cells matter: read before all of them are written, the result would not be defined. -/
theorem C97_cells_matter (m : Mode) (b : Builder) (n : Nat) : pushCells m (n + 1) b (List.replicate (n + 1) none) = none := by
  unfold pushCells
  rw [List.getElem?_replicate, if_pos (Nat.lt_succ_self n)]

/-- Two strings, and the bytes of the message after. -/
example : ((newWithCapacity 8).okAnd fun b => match createVectorOfStringsCells .debug b ["a", "bc"] with
    | some r => r.okAnd fun q => q.1 == 28 &&
      q.2.buf.drop q.2.head == [2, 0, 0, 0, 8, 0, 0, 0, 12, 0, 0, 0, 1, 0, 0, 0, 97, 0, 0, 0, 2, 0, 0, 0, 98, 99, 0, 0]
    | none => false) = true := by decide +kernel

end Butte
