import Verif.Ir.DeepTotal
import Verif.Ir.StepsText
import Verif.Parse.DepthLow
/-
A schema for which the stack of the analysis grows with the number of declarations: each struct has one field, of the type of the struct
before it.
-/
namespace Butte.Ir.Nested

open Ast (Element)
open Timed (towerName towerField tower_ident tower_inj tower_isIdent tower_field byte_field)
open Parse

/-- The field of the `k`th struct as written. -/
def chainAst : Nat → List Ast.Field
  | 0 => [towerField c!"a" (.builtin .byte)]
  | k + 1 => [towerField c!"a" (.ident [towerName k])]

/-- `struct T{a:byte;}`, `struct Ta{a:T;}`, … -/
def chainDecl (k : Nat) : Element := .struct ⟨towerName k, chainAst k, none, []⟩

/-- The first structs, in order. -/
def chainSchema (n : Nat) : Ast.Schema := ⟨[], (List.range (n + 1)).map chainDecl⟩

/-- The field of the `k`th struct as resolved. -/
def chainFields : Nat → List Field
  | 0 => [⟨c!"a", .builtin .byte, none, false, []⟩]
  | k + 1 => [⟨c!"a", .struct [towerName k] (chainFields k), none, false, []⟩]

theorem chainFields_clone : ∀ k, cloneFields (chainFields k) = 5 * k + 3
  | 0 => by simp [chainFields, cloneFields, cloneField, cloneTy]
  | k + 1 => by
    have := chainFields_clone k
    simp only [chainFields, cloneFields, cloneField, cloneTy]
    omega

/-- Where the analysis is when the `k`th struct comes. -/
structure ChainAt (k : Nat) (c : Ctx) : Prop where
  ns : c.ns = none
  new : ∀ j, k ≤ j → c.types [towerName j] = none
  old : ∀ j, k = j + 1 → c.types [towerName j] = some (.defined (.struct (chainFields j)))

theorem chain_fields {k : Nat} {c : Ctx} (h : ChainAt k c) (q : QIdent) :
    c.structFields q (chainAst k) = .ok (some (chainFields k)) := by
  cases k with
  | zero => rfl
  | succ j =>
    have ht : c.tryType (.ident [towerName j]) = some (.struct [towerName j] (chainFields j)) := by
      simp only [Ctx.tryType, qualifyRef, qualify, h.ns, tower_ident]
      show c.find [towerName j] = _
      simp only [Ctx.find, h.old j rfl]
      rfl
    simp only [chainAst, towerField, Ctx.structFields, ht]
    rfl

theorem chain_step {k : Nat} {c : Ctx} (h : ChainAt k c) (p : Nat) : ∃ c', c.newElement p (chainDecl k) = .ok (true, c') ∧
    ChainAt (k + 1) c' ∧ 5 * k + 5 ≤ (newElement c p (chainDecl k)).deep := by
  have hq : qualify c.ns (mkIdent (towerName k)) = [towerName k] := by
    simp [qualify, h.ns, tower_ident, mkQIdent]
  have hd : c.isDefined [towerName k] = false := by simp [Ctx.isDefined, h.new k (Nat.le_refl _)]
  refine ⟨(c.setType [towerName k] (.defined (.struct (chainFields k)))).addNodes p [.struct ⟨[towerName k], chainFields k, []⟩],
    ?_, ⟨h.ns, ?_, ?_⟩, ?_⟩
  · simp only [chainDecl, Ctx.newElement, Ctx.newStruct, hq, hd, chain_fields h]
    rfl
  · intro j hj
    simp only [Ctx.addNodes, Ctx.setType]
    rw [if_neg (fun e => by have := tower_inj (List.cons.inj e).1; omega)]
    exact h.new j (by omega)
  · intro j hj
    have : j = k := by omega
    subst this
    simp [Ctx.addNodes, Ctx.setType]
  · simp only [chainDecl, newElement, newStruct, call_deep, hq, hd, bind_deep, structFields_val, chain_fields h, uses_deep, pure_deep,
      chainFields_clone, Bool.false_eq_true, if_false]
    omega

theorem chain_pass (m k : Nat) (c : Ctx) (h : ChainAt k c) :
    (∃ c', c.pass ((List.range' k (m + 1)).map fun i => (i, chainDecl i)) = .ok ([], c')) ∧
      5 * (k + m) + 5 ≤ (pass c ((List.range' k (m + 1)).map fun i => (i, chainDecl i))).deep := by
  induction m generalizing k c with
  | zero =>
    obtain ⟨c1, h1, h2, h3⟩ := chain_step h k
    refine ⟨⟨c1, by simp [List.range', Ctx.pass, h1]⟩, ?_⟩
    simp only [List.range', List.map_cons, List.map_nil, pass, andThen_deep]
    exact Nat.le_trans h3 (Nat.le_max_left _ _)
  | succ m ih =>
    obtain ⟨c1, h1, h2, h3⟩ := chain_step h k
    obtain ⟨⟨c2, h4⟩, h5⟩ := ih (k + 1) c1 h2
    refine ⟨⟨c2, ?_⟩, ?_⟩
    · rw [List.range'_succ]
      simp only [List.map_cons, Ctx.pass, h1, BRes.ok_bind]
      rw [h4]
      rfl
    · rw [List.range'_succ]
      simp only [List.map_cons, pass, andThen_deep, newElement_val, h1]
      rw [show k + (m + 1) = k + 1 + m by omega]
      exact Nat.le_trans h5 (Nat.le_trans (Nat.le_max_left _ _) (Nat.le_max_right _ _))

theorem chain_indexed (n : Nat) : indexed (chainSchema n).elements = (List.range' 0 (n + 1)).map fun i => (i, chainDecl i) := by
  unfold indexed chainSchema
  rw [← List.range_eq_range']
  apply List.ext_getElem
  · simp
  · intro i h1 h2; simp

theorem chain_build (n : Nat) : (∃ out, Ir.build (chainSchema n) = some (.ok out)) ∧ 5 * n + 6 ≤ (build (chainSchema n)).deep := by
  obtain ⟨⟨c', h1⟩, h2⟩ := chain_pass n 0 .init ⟨rfl, fun _ _ => rfl, fun j h => by omega⟩
  have h3 : Ctx.retry ((chainSchema n).elements.length + 1) .init (indexed (chainSchema n).elements) = some (.ok c') := by
    simp only [Ctx.retry, chain_indexed, h1]
    rfl
  refine ⟨⟨arrange c'.items, by unfold Ir.build; rw [h3]; rfl⟩, ?_⟩
  have h4 : 5 * n + 5 ≤ (retry ((chainSchema n).elements.length + 1) .init (indexed (chainSchema n).elements)).deep := by
    simp only [retry, bind_deep, chain_indexed]
    exact Nat.le_trans (by omega) (Nat.le_max_left _ _)
  simp only [build, call_deep, bind_deep]
  omega

/-! ### Its text -/

variable [Env]

/-- The field of the `k`th struct. -/
def chainBody : Nat → Str
  | 0 => c!"a:byte;"
  | k + 1 => c!"a:" ++ (towerName k ++ c!";")

/-- The `k`th struct. -/
def chainOne (k : Nat) : Str := c!"struct " ++ (towerName k ++ ('{' :: (chainBody k ++ c!"}")))

/-- The structs from the `k`th on. -/
def chainFrom (k : Nat) : Nat → Str
  | 0 => []
  | m + 1 => chainOne k ++ chainFrom (k + 1) m

/-- The text of the chain. -/
def chainText (n : Nat) : Str := chainFrom 0 (n + 1)

theorem chain_body : ∀ k, ManyText FieldText (chainAst k) (chainBody k)
  | 0 => by
    have := ManyText.cons (w := []) byte_field .nil .nil
    simpa [chainAst, chainBody] using this
  | k + 1 => by
    have := ManyText.cons (w := []) (tower_field 'a' (by decide) (by decide) k) .nil .nil
    simpa [chainAst, chainBody] using this

theorem chain_one (k : Nat) : ElementText (chainDecl k) (chainOne k) := by
  have := ElementText.struct (ProductText.mk (kw := c!"struct") (p := ⟨towerName k, chainAst k, none, []⟩) (w₁ := c!" ") (w₂ := []) (w₃ := [])
    (w₄ := []) .nil (.space (.inl rfl) .nil) (by simp) (tower_isIdent k) .nil .none .nil .nil (chain_body k))
  simpa [chainDecl, chainOne] using this

theorem chain_from (k m : Nat) : ManyText ElementText ((List.range' k m).map chainDecl) (chainFrom k m) := by
  induction m generalizing k with
  | zero => exact .nil
  | succ m ih =>
    have := ManyText.cons (w := []) (chain_one k) .nil (ih (k + 1))
    simpa [List.range'_succ, chainFrom] using this

theorem chain_text (n : Nat) : SchemaText (chainSchema n) (chainText n) := by
  have := SchemaText.mk (s := chainSchema n) (w := []) (is := []) (es := chainText n) (e := []) (.inr (by simp [chainSchema])) .nil .nil
    (by rw [chainSchema, List.range_eq_range']; exact chain_from 0 (n + 1)) .none
  simpa using this

omit [Env] in
theorem chain_chars (k m : Nat) : ∀ c ∈ chainFrom k m, c ≠ 'n' := by
  have h0 : ∀ k, ∀ c ∈ towerName k, c ≠ 'n' := by
    intro k c h
    rcases List.mem_cons.mp h with rfl | h
    · decide
    · rw [List.eq_of_mem_replicate h]; decide
  have h1 : ∀ k, ∀ c ∈ chainOne k, c ≠ 'n' := by
    intro k c h
    cases k with
    | zero => revert c; decide
    | succ k =>
      simp only [chainOne, chainBody, List.mem_append, List.mem_cons, List.not_mem_nil, or_false] at h
      have a := h0 k c
      have b := h0 (k + 1) c
      by_cases e : c = 'n'
      · subst e
        have a' : ¬ 'n' ∈ towerName k := fun h => a h rfl
        have b' : ¬ 'n' ∈ towerName (k + 1) := fun h => b h rfl
        simp [a', b'] at h
      · exact e
  induction m generalizing k with
  | zero => intro c h; cases h
  | succ m ih =>
    intro c h
    rcases List.mem_append.mp h with h | h
    · exact h1 k c h
    · exact ih (k + 1) c h

theorem chain_parse (n : Nat) : Parse.schemaDecl (chainText n) = some ([], chainSchema n) := by
  refine schemaDecl_eq (chain_text n) ?_ ?_
  · intro el hel
    simp only [chainSchema, List.mem_map] at hel
    obtain ⟨k, -, rfl⟩ := hel
    intro f hf
    cases k with
    | zero => simp only [chainAst, List.mem_singleton] at hf; subst hf; trivial
    | succ k => simp only [chainAst, List.mem_singleton] at hf; subst hf; trivial
  · intro w hw a b e
    exfalso
    have hn : 'n' ∈ w := by
      simp only [List.mem_cons, List.not_mem_nil, or_false] at hw
      rcases hw with rfl | rfl | rfl <;> decide
    exact chain_chars 0 (n + 1) 'n' (by rw [show chainFrom 0 (n + 1) = a ++ (w ++ b) from e]; simp [hn]) rfl

omit [Env] in
theorem chain_length (k m : Nat) : (chainFrom k m).length ≤ m * (2 * (k + m) + 20) := by
  induction m generalizing k with
  | zero => simp [chainFrom]
  | succ m ih =>
    have h1 : (chainOne k).length ≤ 2 * k + 20 := by
      cases k with
      | zero => decide
      | succ k => simp only [chainOne, chainBody, towerName, List.length_append, List.length_cons, List.length_replicate, List.length_nil]; omega
    have := ih (k + 1)
    rw [show k + 1 + m = k + (m + 1) by omega] at this
    rw [chainFrom, List.length_append, Nat.add_mul m]
    omega

end Butte.Ir.Nested
