import Verif.Rt.Spec
/-
Concrete cases: a checker that runs a list of calls, used by the `example`s that accompany the property
theorems to show that their hypotheses can be met. Nothing here is used in a proof of a property.
-/
namespace Butte

/-- A successful result satisfying a test. -/
def Res.okAnd {α : Type} (r : Res α) (p : α → Bool) : Bool :=
  match r with
  | .ok a => p a
  | _ => false

theorem Res.okAnd_ex {α : Type} {r : Res α} {p : α → Bool} (h : r.okAnd p = true) : ∃ a, r = .ok a ∧ p a = true := by
  cases r with
  | ok a => exact ⟨a, rfl, h⟩
  | err e => cases h
  | panic => cases h

/-- Run calls on a new builder. -/
def fromNew (m : Mode) (cap : Nat) (ops : List Op) : Res (List (Option Nat) × Builder) := do
  let b ← Builder.newWithCapacity cap
  run m b ops

theorem fromNew_ex {m : Mode} {cap : Nat} {ops : List Op} {p : List (Option Nat) × Builder → Bool}
    (h : (fromNew m cap ops).okAnd p = true) :
    ∃ b₀ r b, Builder.newWithCapacity cap = .ok b₀ ∧ run m b₀ ops = .ok (r, b) ∧ p (r, b) = true := by
  obtain ⟨⟨r, b⟩, e, hp⟩ := Res.okAnd_ex h
  unfold fromNew at e
  cases h0 : Builder.newWithCapacity cap with
  | ok b0 => rw [h0] at e; exact ⟨b0, r, b, rfl, e, hp⟩
  | err e' => rw [h0] at e; cases e
  | panic => rw [h0] at e; cases e

theorem fromNew_reachable {m : Mode} {cap : Nat} {ops : List Op} {p : List (Option Nat) × Builder → Bool}
    (h : (fromNew m cap ops).okAnd p = true) : ∃ b, Reachable m b ∧ ∃ r, p (r, b) = true := by
  obtain ⟨b0, r, b, h0, h1, hp⟩ := fromNew_ex h
  exact ⟨b, ⟨cap, b0, ops, r, h0, h1⟩, r, hp⟩

/-- Run `pre` on a new builder, build a table from `body`, run `rest`, and test the states seen on the way. -/
def sampleT (m : Mode) (cap : Nat) (pre body rest : List Op)
    (p : Builder → Nat → Builder → Builder → Bool) : Bool :=
  match fromNew m cap pre with
  | .ok (_, b) =>
    match step m b .startTable with
    | .ok (some t, b1) =>
      match run m b1 body with
      | .ok (_, b2) =>
        if ht : t < 2 ^ 32 then
          match step m b2 (.endTable ⟨t, ht⟩) with
          | .ok (some obj, b3) =>
            match run m b3 rest with
            | .ok (_, b4) => p b obj b3 b4
            | _ => false
          | _ => false
        else false
      | _ => false
    | _ => false
  | _ => false

theorem sampleT_ex {m : Mode} {cap : Nat} {pre body rest : List Op} {p : Builder → Nat → Builder → Builder → Bool}
    (hpre : NoPending pre) (hb : ∀ op ∈ body, op.inBody = true)
    (hs : ∀ f ∈ body.filterMap Op.stored, SlotOk f.slot)
    (hn : ((body.filterMap Op.stored).map Fld.slot).Nodup)
    (h : sampleT m cap pre body rest (fun b obj b' b'' => decide (obj - b.usedSpace < 65536) && p b obj b' b'') = true) :
    ∃ b obj b' rets b'', Idle m b ∧ BuildsTable m b body obj b' ∧ run m b' rest = .ok (rets, b'') ∧
      p b obj b' b'' = true := by
  unfold sampleT at h
  split at h <;> try (cases h; done)
  rename_i r0 b e0
  split at h <;> try (cases h; done)
  rename_i t b1 e1
  split at h <;> try (cases h; done)
  rename_i r2 b2 e2
  split at h <;> try (cases h; done)
  rename_i ht
  split at h <;> try (cases h; done)
  rename_i obj b3 e3
  split at h <;> try (cases h; done)
  rename_i r4 b4 e4
  simp only [Bool.and_eq_true, decide_eq_true_eq] at h
  refine ⟨b, obj, b3, r4, b4, ?_, ⟨⟨⟨t, ht⟩, b1, b2, r2, e1, e2, e3⟩, hb, hs, hn, fun _ => h.1⟩, e4, h.2⟩
  unfold fromNew at e0
  cases h0 : Builder.newWithCapacity cap with
  | ok b0 => rw [h0] at e0; exact ⟨cap, b0, pre, r0, h0, e0, hpre⟩
  | err e' => rw [h0] at e0; cases e0
  | panic => rw [h0] at e0; cases e0

/-- Values for the concrete cases. -/
def u8c (n : Nat) : PVal (.sc .u8) := Fin.ofNat 256 n
def u16c (n : Nat) : PVal (.sc .u16) := Fin.ofNat (2 ^ 16) n
def u32c (n : Nat) : PVal (.sc .u32) := Fin.ofNat (2 ^ 32) n

/-- A small build: a string, a table with a `u16` and an offset field, `finish`. -/
def sampleTable : List Op :=
  [.createString "hi", .startTable, .pushSlotAlways 4 (.sc .u16) (u16c 513),
   .pushSlotAlways 6 .off (Builder.offVal 8), .endTable 8]

def sampleOps : List Op := sampleTable ++ [.finish 20 none false]

end Butte
