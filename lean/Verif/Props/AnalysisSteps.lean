import Verif.Ir.StepsText
import Verif.Tests.Kernel
/-
C100: how long the semantic analysis takes and how large its result is.

`Ir.Timed.build` is the analysis again, written so that it counts: calls, lookups, insertions, and every node of a type that is copied.
-/
namespace Butte

open Ir Ir.Timed Parse

/-- **C100.** The counting analysis gives what the analysis gives, on every schema. -/
theorem C100_result (s : Ast.Schema) : (Timed.build s).val = Ir.build s := build_val s

/-- **C100.** The steps are not forgotten: what comes out is not larger than their number. -/
theorem C100_output {s : Ast.Schema} {out : List Node} (h : Ir.build s = some (.ok out)) : outSize out ≤ (Timed.build s).steps :=
  build_size_le h

/-- **C100** is false: the analysis copies the definition of every type that is named, with the types in it, so that neither its result
nor the time it takes is bounded by a polynomial in the length of the text. The texts are `struct T{a:byte;}struct Ta{a:T;b:T;}struct
Taa{a:Ta;b:Ta;}…`. -/
theorem C100_refuted [Env] (K e : Nat) : ∃ t s out, Parse.schemaDecl t = some ([], s) ∧ Ir.build s = some (.ok out) ∧
    K * (t.length + 1) ^ e < outSize out ∧ K * (t.length + 1) ^ e < (Timed.build s).steps := by
  obtain ⟨n, hn⟩ := outgrows K e
  obtain ⟨out, h1, h2⟩ := tower_build n
  have hl := tower_length 0 (n + 1)
  rw [Nat.zero_add] at hl
  have h3 : K * ((towerText n).length + 1) ^ e < outSize out := by
    refine Nat.lt_of_le_of_lt (Nat.mul_le_mul_left _ (Nat.pow_le_pow_left ?_ e)) (Nat.lt_of_lt_of_le hn h2)
    exact Nat.succ_le_succ hl
  exact ⟨towerText n, towerSchema n, out, tower_parse n, h1, h3, Nat.lt_of_lt_of_le h3 (C100_output h1)⟩

/-- **C100**, for structs and unions in layers: if every struct and union is in a layer above those of the types that its members name
(told apart by the last part of the name), and there are `d` layers above the lowest, then the number of steps is bounded by a polynomial
of degree `d + 3` in the number of nodes of the schema, whether it is accepted or not. -/
theorem C100_layers_partial {s : Ast.Schema} {layer : Ident → Nat} {d : Nat} (hl : Layered s.elements layer d) :
    (Timed.build s).steps ≤ 2 * (2 * schemaWeight s + 2) ^ (d + 3) := build_layered hl

/-- **C100**, the same for a text that was read. -/
theorem C100_text_partial [Env] (hx : HexfPrefix) {t : Str} {s : Ast.Schema} {layer : Ident → Nat} {d : Nat}
    (h : Parse.schemaDecl t = some ([], s)) (hl : Layered s.elements layer d) :
    (Timed.build s).steps ≤ 2 * (2 * t.length + 2) ^ (d + 3) := by
  have := schema_weight (schemaDecl_sound hx h)
  exact Nat.le_trans (build_layered hl) (Nat.mul_le_mul_left _ (Nat.pow_le_pow_left (by omega) _))

/-- **C100**, for every schema: the number of its structs and unions takes the place of the number of layers. -/
theorem C100_any_partial (s : Ast.Schema) :
    (Timed.build s).steps ≤ 2 * (2 * schemaWeight s + 2) ^ (s.elements.countP (fun el => (nestName el).isSome) + 3) := by
  have e : nestings (indexed s.elements) = s.elements.countP (fun el => (nestName el).isSome) := by
    unfold nestings indexed
    rw [List.map_map]
    conv_rhs => rw [← List.zipIdx_map_fst 0 s.elements]
    generalize s.elements.zipIdx 0 = l
    induction l with
    | nil => rfl
    | cons x l ih =>
      simp only [List.map_cons, List.sum_cons, List.countP_cons, ← ih]
      exact Nat.add_comm _ _
  rw [← e]
  exact build_any s

section

/-- `table T{u:U;b:[Box];}` `struct Box{min:Vec;max:Vec;}` `struct Vec{x:float;c:Color;}` `enum Color:byte{Red,Blue}` `union U{T,Box}` -/
private def layersSchema : Ast.Schema := ⟨[], [
  .table ⟨c!"T", [⟨c!"u", .ident [c!"U"], none, none, []⟩, ⟨c!"b", .array (.ident [c!"Box"]), none, none, []⟩], none, []⟩,
  .struct ⟨c!"Box", [⟨c!"min", .ident [c!"Vec"], none, none, []⟩, ⟨c!"max", .ident [c!"Vec"], none, none, []⟩], none, []⟩,
  .struct ⟨c!"Vec", [⟨c!"x", .builtin .float, none, none, []⟩, ⟨c!"c", .ident [c!"Color"], none, none, []⟩], none, []⟩,
  .enum ⟨c!"Color", [⟨c!"Red", none, []⟩, ⟨c!"Blue", none, []⟩], .builtin .byte, none, []⟩,
  .union ⟨c!"U", [⟨c!"T", none, []⟩, ⟨c!"Box", none, []⟩], none, []⟩]⟩

private def layersOf (i : Ident) : Nat :=
  if i = c!"Vec" then 1 else if i = c!"Box" then 2 else if i = c!"U" then 3 else 0

private def sizeOfResult (s : Ast.Schema) : Option Nat :=
  match Ir.build s with
  | some (.ok out) => some (outSize out)
  | _ => none

/-- Three layers above the lowest; the analysis takes three passes, with these steps and nodes. -/
example : Layered layersSchema.elements layersOf 3 ∧ sizeOfResult layersSchema = some 99 ∧
    (Timed.build layersSchema).steps = 212 ∧ schemaWeight layersSchema = 24 := by
  refine ⟨⟨?_, ?_⟩, ?_, ?_, by decide⟩
  · intro i; unfold layersOf; split <;> (try split) <;> (try split) <;> omega
  · decide
  · kernel_rfl
  · kernel_rfl

/-- In ten structs of the tower, there are six thousand nodes. -/
example : sizeOfResult (towerSchema 9) = some 6108 := by kernel_rfl

example : towerText 2 = c!"struct T{a:byte;}struct Ta{a:T;b:T;}struct Taa{a:Ta;b:Ta;}" := by decide

end

end Butte
