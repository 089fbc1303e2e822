import Verif.Gen.Untrusted
import Verif.Props.Reader
/-
Property C69: generated code on bytes that nobody vouches for.
-/
namespace Butte.Gen
open Ir (QIdent)

/-- **C69** In a release build no generated accessor panics, on whatever bytes and at whatever place a table is
supposed to be. -/
theorem C69_accessors (gm : Mode) (t : Ir.Table) (gs : List GField) (hc : compileTable gm t = some gs) (buf : Bytes)
    (hv : buf.Valid) (loc : Nat) (i : Fin gs.length) : accessor .release ⟨buf, loc⟩ gs (gs.get i) ≠ .panic :=
  (accessor_safe hc (tbl := ⟨buf, loc⟩) hv i).1

/-- **C69** A caller that reads everything, from the root down through all fields, vectors and union values, comes to
an end with a value or an error: offsets never lead back, so that no more than `length + 2` levels are entered (a level
too deep would be the outcome `panic`). -/
theorem C69_whole_graph (gm : Mode) (S : Tables) (hS : Usable gm S) (q : QIdent) (t : Ir.Table) (hq : S q = some t)
    (buf : Bytes) (hv : buf.Valid) (n : Nat) (hn : buf.length + 2 ≤ n) :
    (do let r ← Table.getRoot .release buf; readVal gm .release S n (.table q) (.fwdU .table) r) ≠ .panic ∧
    (do let r ← Table.getSizePrefixedRoot .release buf; readVal gm .release S n (.table q) (.fwdU .table) r) ≠ .panic := by
  have key : ∀ l, l < 2 ^ 64 → (do
      let r ← FTy.follow .release (.fwdU .table) buf l
      readVal gm .release S n (.table q) (.fwdU .table) r).NoPanic := by
    intro l hl
    refine NoPanic.bind (follow_noPanic _ _ _ hv) fun r hr =>
      readVal_noPanic hS hv n (.table q) (.fwdU .table) r rfl (.table hq) ?_
    exact follow_enough hv hl (by omega) (fun h => by omega) hr
  refine ⟨key 0 (by decide), ?_⟩
  have := key 4 (by decide)
  exact this

/-- **C69** and what it ends with does not depend on the bound. -/
theorem C69_bound_irrelevant (gm : Mode) (S : Tables) (hS : Usable gm S) (q : QIdent) (t : Ir.Table) (hq : S q = some t)
    (buf : Bytes) (hv : buf.Valid) (loc : Nat) (hl : loc < buf.length + 2 ^ 32) (n : Nat) (hn : buf.length + 2 ≤ n) :
    readVal gm .release S n (.table q) (.fwdU .table) (⟨buf, loc⟩ : Butte.Table) =
      readVal gm .release S (buf.length + 2) (.table q) (.fwdU .table) (⟨buf, loc⟩ : Butte.Table) := by
  obtain ⟨k, rfl⟩ := Nat.exists_eq_add_of_le hn
  induction k with
  | zero => rfl
  | succ k ih =>
    rw [← ih (by omega)]
    refine readVal_mono _ _ _ _ (readVal_noPanic hS hv _ (.table q) (.fwdU .table) _ rfl (.table hq) ?_)
    exact ⟨rfl, hl, by show buf.length - loc + 2 ≤ buf.length + 2 + k; omega⟩

/-! ### Concrete cases meeting the hypotheses -/

/-- `table N { next: N; }` -/
def exN : Ir.Table := ⟨[c!"N"], [⟨c!"next", .table [c!"N"], none, false, []⟩], false, []⟩

/-- The schema of `N` alone. -/
def exNs : Tables := fun q => if q = [c!"N"] then some exN else none

theorem exNs_usable (gm : Mode) : Usable gm exNs := by
  intro q t h
  unfold exNs at h
  split at h
  · cases h
    refine ⟨by cases gm <;> exact ⟨_, rfl⟩, ?_⟩
    intro f hf
    simp only [exN, List.mem_cons, List.not_mem_nil, or_false] at hf
    subst hf
    exact .table (t := exN) rfl
  · cases h

/-- An offset of 0 in the field of the root: its target is the field itself, taken for a table whose vtable is there
too. -/
def exLoop : Bytes := [12, 0, 0, 0, 6, 0, 8, 0, 4, 0, 0, 0, 8, 0, 0, 0, 0, 0, 0, 0]

example (gm : Mode) :
    (do let r ← Table.getRoot .release exLoop; readVal gm .release exNs 22 (.table [c!"N"]) (.fwdU .table) r) =
      .ok (.table [some (.table [none])]) := by
  cases gm <;> rfl

/-- Bytes that are all 1: the root's offset leads out of the buffer. -/
example (gm : Mode) (n : Nat) :
    (do let r ← Table.getRoot .release (List.replicate 20 1); readVal gm .release exNs (n + 1) (.table [c!"N"]) (.fwdU .table) r) =
      .err .outOfBounds := by
  cases gm <;> rfl

example (gm : Mode) (buf : Bytes) (hv : buf.Valid) (n : Nat) (hn : buf.length + 2 ≤ n) :
    (do let r ← Table.getRoot .release buf; readVal gm .release exNs n (.table [c!"N"]) (.fwdU .table) r) ≠ .panic :=
  (C69_whole_graph gm exNs (exNs_usable gm) [c!"N"] exN rfl buf hv n hn).1

end Butte.Gen
