import Verif.Mem.WordBuildSame
import Verif.Rt.Sample
/-
Property C98: writing on machines with other pointers than 64 bits (Verif/Mem/WordBuild.lean).
-/
namespace Butte

/-- **C98** with 64 bits the builder is that of the other properties: creating it, each call, and any list of calls. -/
theorem C98_same (m : Mode) (b : Builder) (op : Op) (ops : List Op) (n : Nat) :
    Word.Builder.newWithCapacity 64 n = Builder.newWithCapacity n ∧ Word.step 64 m b op = step m b op ∧
    Word.run 64 m b ops = run m b ops := by
  refine ⟨?_, Word.step_64 m b op, Word.run_64 m ops b⟩
  have hM : maxBufferSize = 2 ^ 31 := rfl
  unfold Word.Builder.newWithCapacity Builder.newWithCapacity
  by_cases h : n ≤ maxBufferSize
  · rw [decide_eq_true h, decide_eq_true (by omega : n ≤ 2 ^ (64 - 1) - 1)]
    rfl
  · rw [decide_eq_false h]
    rfl

/-- A builder is created and called, with pointers of `w` bits. -/
def Word.build (w : Nat) (m : Mode) (n : Nat) (ops : List Op) : Res (List (Option Nat) × Builder) := do
  let b ← Word.Builder.newWithCapacity w n
  Word.run w m b ops

/-- Both steps of `Word.build` as one. -/
theorem Word.build_sim {w : Nat} (hw : Width w) {m : Mode} {n : Nat} {ops : List Op} (ho : ∀ op ∈ ops, Word.Holds w op) :
    Sim w (fun r => Inv w r.2) len2 (build w m n ops) (Butte.Builder.newWithCapacity n >>= fun b => Butte.run m b ops) :=
  .bind (new_sim hw) (fun b hb => run_sim hw hb ho) fun b => run_longer

/-- **C98** whatever the calls, in whatever order, with whatever arguments fit into memory, and whether they make sense or not: with
pointers of `w` bits they return what they return with 64 bits, leave the same builder behind, and fail where they fail; or they
panic, and then because with 64 bits the buffer gets longer than `isize::MAX = 2 ^ (w - 1) - 1` bytes. -/
theorem C98_run (w : Nat) (hw : 32 ≤ w) (hw' : w ≤ 64) (m : Mode) (n : Nat) (ops : List Op) (ho : ∀ op ∈ ops, Word.Holds w op) :
    let y := Builder.newWithCapacity n >>= fun b => run m b ops
    Word.build w m n ops = y ∨
    (Word.build w m n ops = .panic ∧ ∀ rets b, y = .ok (rets, b) → 2 ^ (w - 1) ≤ b.buf.length) := by
  rcases Word.build_sim ⟨hw, hw'⟩ (m := m) (n := n) ho with ⟨h, -⟩ | ⟨h, h'⟩
  · exact .inl h
  · exact .inr ⟨h, fun rets b hb => h' (rets, b) hb⟩

/-- Calls that fit: with 32-bit pointers up to 2 GiB. -/
example : ∀ op ∈ [Op.createString "butte", .startTable, .pushSlot 4 .off (Builder.offVal 12) (Builder.offVal 0), .endTable 12,
    .finish 20 none true, .startVector (.sc .u64) (2 ^ 28 - 1), .required (2 ^ 32 - 1) 65535, .reset], Word.Holds 32 op := by
  intro op h
  simp only [List.mem_cons, List.not_mem_nil, or_false] at h
  rcases h with rfl | rfl | rfl | rfl | rfl | rfl | rfl | rfl <;> simp only [Word.Holds]
  · decide
  · decide

/-- **C98** a message built with 64-bit pointers in a buffer that fits is built, byte for byte, with pointers of `w` bits. -/
theorem C98_fits (w : Nat) (hw : 32 ≤ w) (hw' : w ≤ 64) (m : Mode) (n : Nat) (ops : List Op) (ho : ∀ op ∈ ops, Word.Holds w op)
    (rets : List (Option Nat)) (b : Builder) (h : (Builder.newWithCapacity n >>= fun b => run m b ops) = .ok (rets, b))
    (hl : b.buf.length < 2 ^ (w - 1)) : Word.build w m n ops = .ok (rets, b) := by
  rcases C98_run w hw hw' m n ops ho with h' | ⟨-, h'⟩
  · rw [h', h]
  · have := h' rets b h
    omega

/-- A table with a string in it, finished. -/
example : Res.okAnd (Builder.newWithCapacity 0 >>= fun b => run .debug b [.createString "butte", .startTable,
    .pushSlot 4 .off (Builder.offVal 12) (Builder.offVal 0), .endTable 12, .finish 20 none true])
    (fun r => decide (r.2.buf.length < 2 ^ 31) && r.2.finished) = true := by decide +kernel

/-- **C98** nothing else is built: the buffer fits, and with 64 bits the calls do the same. So of the calls that succeed with 64 bits
exactly those succeed whose buffer fits. -/
theorem C98_exactly (w : Nat) (hw : 32 ≤ w) (hw' : w ≤ 64) (m : Mode) (n : Nat) (ops : List Op) (ho : ∀ op ∈ ops, Word.Holds w op)
    (rets : List (Option Nat)) (b : Builder) : Word.build w m n ops = .ok (rets, b) ↔
      (Builder.newWithCapacity n >>= fun b => run m b ops) = .ok (rets, b) ∧ b.buf.length < 2 ^ (w - 1) := by
  refine ⟨fun h => ?_, fun h => C98_fits w hw hw' m n ops ho rets b h.1 h.2⟩
  rcases Word.build_sim ⟨hw, hw'⟩ (m := m) (n := n) ho with ⟨e, hi⟩ | ⟨e, -⟩
  · rw [h] at e
    exact ⟨e.symm, (hi _ e.symm).len⟩
  · rw [h] at e
    cases e

/-- **C98** what is built with pointers of any width is built with wider ones. -/
theorem C98_wider (w w' : Nat) (hw : 32 ≤ w) (hww : w ≤ w') (hw' : w' ≤ 64) (m : Mode) (n : Nat) (ops : List Op)
    (ho : ∀ op ∈ ops, Word.Holds w op) (r : List (Option Nat) × Builder) (h : Word.build w m n ops = .ok r) :
    Word.build w' m n ops = .ok r := by
  have hp : 2 ^ (w - 1) ≤ 2 ^ (w' - 1) := Nat.pow_le_pow_right (by decide) (by omega)
  have ho' : ∀ op ∈ ops, Word.Holds w' op := by
    intro op hop
    have := ho op hop
    cases op <;> simp only [Word.Holds] at this ⊢
    case createVectorOfStrings xs => exact ⟨by omega, fun s hs => Nat.lt_of_lt_of_le (this.2 s hs) hp⟩
    all_goals omega
  rcases Word.build_sim ⟨hw, Nat.le_trans hww hw'⟩ (m := m) (n := n) ho with ⟨e, hi⟩ | ⟨e, -⟩
  · rw [h] at e
    have hl := (hi r e.symm).len
    exact C98_fits w' (by omega) hw' m n ops ho' r.1 r.2 e.symm (by omega)
  · rw [h] at e
    cases e

/-- **C98** the bound matters: 2 GiB can be asked for with 64-bit pointers, and not with 32-bit pointers. -/
theorem C98_room : Word.Builder.newWithCapacity 32 (2 ^ 31) = .panic ∧ ∃ b, Builder.newWithCapacity (2 ^ 31) = .ok b := by
  have hM : maxBufferSize = 2 ^ 31 := rfl
  unfold Word.Builder.newWithCapacity Builder.newWithCapacity
  rw [decide_eq_true (by omega : 2 ^ 31 ≤ maxBufferSize), decide_eq_false (by decide : ¬ 2 ^ 31 ≤ 2 ^ (32 - 1) - 1)]
  exact ⟨rfl, _, rfl⟩

end Butte
