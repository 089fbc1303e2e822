import Verif.Ir.StepsTotal
import Verif.Parse.StepsLow
/-
A schema whose intermediate representation is exponentially larger than its text: each struct has two fields of the type of the struct
before it.
-/
namespace Butte.Ir.Timed

open Parse.Timed (Ct tick pure_steps pure_val bind_steps bind_val tick_steps)
open Ast (Element)
open Parse

/-- `T`, `Ta`, `Taa`, … -/
def towerName (k : Nat) : Str := 'T' :: List.replicate k 'a'

/-- A field of a struct of the tower. -/
def towerField (n : Str) (t : Ast.Ty) : Ast.Field := ⟨n, t, none, none, []⟩

/-- The fields of the `k`th struct as written. -/
def towerAst : Nat → List Ast.Field
  | 0 => [towerField c!"a" (.builtin .byte)]
  | k + 1 => [towerField c!"a" (.ident [towerName k]), towerField c!"b" (.ident [towerName k])]

/-- `struct T{a:byte;}`, `struct Ta{a:T;b:T;}`, … -/
def towerDecl (k : Nat) : Element := .struct ⟨towerName k, towerAst k, none, []⟩

/-- The first structs, in order. -/
def towerSchema (n : Nat) : Ast.Schema := ⟨[], (List.range (n + 1)).map towerDecl⟩

/-- The fields of the `k`th struct as resolved. -/
def towerFields : Nat → List Field
  | 0 => [⟨c!"a", .builtin .byte, none, false, []⟩]
  | k + 1 => [⟨c!"a", .struct [towerName k] (towerFields k), none, false, []⟩,
      ⟨c!"b", .struct [towerName k] (towerFields k), none, false, []⟩]

theorem towerFields_size : ∀ k, 2 ^ k ≤ sizeFields (towerFields k)
  | 0 => by simp [towerFields, sizeFields, sizeField, size]
  | k + 1 => by
    have := towerFields_size k
    simp only [towerFields, sizeFields, sizeField, size, Nat.pow_succ]
    omega

theorem tower_ident (k : Nat) : mkIdent (towerName k) = towerName k := by
  simp [mkIdent, fixIdentifier, substituteKeyword, towerName]

theorem tower_inj {j k : Nat} (h : towerName j = towerName k) : j = k := by
  have := congrArg List.length h
  simpa [towerName] using this

/-- Where the analysis is when the `k`th struct comes. -/
structure TowerAt (k : Nat) (c : Ctx) : Prop where
  ns : c.ns = none
  new : ∀ j, k ≤ j → c.types [towerName j] = none
  old : ∀ j, k = j + 1 → c.types [towerName j] = some (.defined (.struct (towerFields j)))

theorem tower_fields {k : Nat} {c : Ctx} (h : TowerAt k c) (q : QIdent) :
    c.structFields q (towerAst k) = .ok (some (towerFields k)) := by
  cases k with
  | zero => rfl
  | succ j =>
    have ht : c.tryType (.ident [towerName j]) = some (.struct [towerName j] (towerFields j)) := by
      simp only [Ctx.tryType, qualifyRef, qualify, h.ns, tower_ident]
      show c.find [towerName j] = _
      simp only [Ctx.find, h.old j rfl]
      rfl
    simp only [towerAst, towerField, Ctx.structFields, ht]
    rfl

theorem tower_step {k : Nat} {c : Ctx} (h : TowerAt k c) (p : Nat) : ∃ c', c.newElement p (towerDecl k) = .ok (true, c') ∧
    TowerAt (k + 1) c' ∧ sizeFields (towerFields k) ≤ madeSize c' := by
  have hq : qualify c.ns (mkIdent (towerName k)) = [towerName k] := by
    simp [qualify, h.ns, tower_ident, mkQIdent]
  have hd : c.isDefined [towerName k] = false := by simp [Ctx.isDefined, h.new k (Nat.le_refl _)]
  refine ⟨(c.setType [towerName k] (.defined (.struct (towerFields k)))).addNodes p [.struct ⟨[towerName k], towerFields k, []⟩],
    ?_, ⟨h.ns, ?_, ?_⟩, ?_⟩
  · simp only [towerDecl, Ctx.newElement, Ctx.newStruct, hq, hd, tower_fields h]
    rfl
  · intro j hj
    simp only [Ctx.addNodes, Ctx.setType]
    rw [if_neg (fun e => by have := tower_inj (List.cons.inj e).1; omega)]
    exact h.new j (by omega)
  · intro j hj
    have : j = k := by omega
    subst this
    simp [Ctx.addNodes, Ctx.setType]
  · have key : ∀ l : List (Nat × List Node), sizeFields (towerFields k) ≤
        (((insertNodes p [.struct ⟨[towerName k], towerFields k, []⟩] l).flatMap (·.2)).map nodeSize).sum := by
      intro l
      induction l with
      | nil => simp [insertNodes, nodeSize]
      | cons x l ih =>
        simp only [insertNodes]
        split
        · simp [nodeSize]; omega
        · split
          · simp [nodeSize]; omega
          · simp only [List.flatMap_cons, List.map_append, List.sum_append]; omega
    exact key c.nodes

theorem tower_pass (m k : Nat) (c : Ctx) (h : TowerAt k c) :
    ∃ c', c.pass ((List.range' k (m + 1)).map fun i => (i, towerDecl i)) = .ok ([], c') ∧
      sizeFields (towerFields (k + m)) ≤ madeSize c' := by
  induction m generalizing k c with
  | zero =>
    obtain ⟨c1, h1, h2, h3⟩ := tower_step h k
    refine ⟨c1, ?_, h3⟩
    simp [List.range', Ctx.pass, h1]
  | succ m ih =>
    obtain ⟨c1, h1, h2, h3⟩ := tower_step h k
    obtain ⟨c2, h4, h5⟩ := ih (k + 1) c1 h2
    refine ⟨c2, ?_, by rw [show k + (m + 1) = k + 1 + m by omega]; exact h5⟩
    rw [List.range'_succ]
    simp only [List.map_cons, Ctx.pass, h1, BRes.ok_bind]
    rw [h4]
    rfl

theorem tower_indexed (n : Nat) : indexed (towerSchema n).elements = (List.range' 0 (n + 1)).map fun i => (i, towerDecl i) := by
  unfold indexed towerSchema
  rw [← List.range_eq_range']
  apply List.ext_getElem
  · simp
  · intro i h1 h2; simp

theorem tower_build (n : Nat) : ∃ out, Ir.build (towerSchema n) = some (.ok out) ∧ 2 ^ n ≤ outSize out := by
  obtain ⟨c', h1, h2⟩ := tower_pass n 0 .init ⟨rfl, fun _ _ => rfl, fun j h => by omega⟩
  have h3 : Ctx.retry ((towerSchema n).elements.length + 1) .init (indexed (towerSchema n).elements) = some (.ok c') := by
    simp only [Ctx.retry, tower_indexed, h1]
    rfl
  refine ⟨arrange c'.items, by unfold Ir.build; rw [h3]; rfl, ?_⟩
  rw [arrange_size (retry_proper _ _ _ _ (by intro n hn; cases hn) h3)]
  rw [Nat.zero_add] at h2
  exact Nat.le_trans (towerFields_size n) h2

end Butte.Ir.Timed
