import Verif.Ir.DeepLow
import Verif.Parse.Ascii
/-
C113: how deep the stack of the semantic analysis gets.

`Ir.Nested.build` is the analysis again, with the number of frames that its calls and the copies it makes put on the stack. The type of a
field holds the definition of the struct it names, with the types of its fields (ir/types.rs 258-277), and `find_custom_type` and
`new_struct` copy it with a derived `clone`, which calls itself for every level.

The statement is that a text whose brackets are nested no deeper than the parser can take is one the analysis can take: that the stack of
the analysis is bounded by the nesting of the text. That is refuted; what holds is that it is bounded by the number of structs and unions,
the nesting of the vectors and the length of the namespaces.
-/
namespace Butte

open Ir Ir.Nested Ast

/-- A struct or a union. -/
def isNest : Element → Bool
  | .struct _ | .union _ => true
  | _ => false

namespace Ir.Nested

theorem nestings_count (s : Schema) : Timed.nestings (indexed s.elements) = s.elements.countP isNest := by
  have key : ∀ (l : List Element) (k : Nat),
      ((l.zipIdx k).map fun p => Timed.nests p.1).sum = l.countP isNest := by
    intro l
    induction l with
    | nil => intro k; rfl
    | cons x l ih =>
      intro k
      simp only [List.zipIdx_cons, List.map_cons, List.sum_cons, ih, List.countP_cons]
      cases x <;> simp [Timed.nests, Timed.nestName, isNest] <;> omega
  have := key s.elements 0
  simp only [Timed.nestings, indexed, List.map_map]
  exact this

theorem le_big {α : Type} (m : α → Nat) {l : List α} {a : α} (h : a ∈ l) : m a ≤ Parse.Stack.big m l := by
  induction l with
  | nil => cases h
  | cons b l ih =>
    simp only [Parse.Stack.big]
    rcases List.mem_cons.mp h with rfl | h
    · omega
    · have := ih h; omega

theorem vectors_nest (s : Schema) : Vectors (Parse.Stack.nestSchema s) s.elements := by
  rintro t (ht | ht) f hf
  · exact Nat.le_trans (le_big (fun f : Ast.Field => Parse.Stack.nestTy f.ty) hf) (le_big Parse.Stack.nestElement ht)
  · exact Nat.le_trans (le_big (fun f : Ast.Field => Parse.Stack.nestTy f.ty) hf) (le_big Parse.Stack.nestElement ht)

end Ir.Nested

/-- **C113.** The analysis with a stack gives what the analysis gives, on every schema. -/
theorem C113_result (s : Schema) : (Nested.build s).val = Ir.build s := Nested.build_val s

/-- **C113 is false of the code.** For every size of the stack there is a text that the parser takes with 76 frames and whose schema is
accepted, but the analysis needs more: `struct T{a:byte;}struct Ta{a:T;}struct Taa{a:Ta;}…`. -/
theorem C113_refuted [Parse.Env] (n : Nat) : ∃ t s out, t.length ≤ (n + 1) * (2 * n + 22) ∧ Parse.schemaDecl t = some ([], s) ∧
    Parse.Stack.schemaDecl.deep t ≤ 76 ∧ Ir.build s = some (.ok out) ∧ 5 * n + 6 ≤ (Nested.build s).deep := by
  obtain ⟨⟨out, h1⟩, h2⟩ := chain_build n
  refine ⟨chainText n, chainSchema n, out, ?_, chain_parse n, ?_, h1, h2⟩
  · have := chain_length 0 (n + 1)
    rwa [show 2 * (0 + (n + 1)) + 20 = 2 * n + 22 by omega] at this
  · have h := (Parse.Stack.schemaDecl_exact (i := chainText n)
      ((congrFun Parse.Stack.schemaDecl_run _).trans (chain_parse n))).2
    have h0 : Parse.Stack.nestSchema (chainSchema n) = 0 := by
      have : ∀ l : List Nat, Parse.Stack.big Parse.Stack.nestElement (l.map chainDecl) = 0 := by
        intro l
        induction l with
        | nil => rfl
        | cons k l ih =>
          have : Parse.Stack.nestElement (chainDecl k) = 0 := by cases k <;> rfl
          simp only [List.map_cons, Parse.Stack.big, this, ih]
          rfl
      exact this _
    rw [h0] at h
    exact h

/-- **C113**, the part that holds of every schema, accepted or not: the stack is bounded by the number of structs and unions, how deeply
vectors are nested, and the length of the longest namespace. Tables, enums and services, and the number of members, do not matter. -/
theorem C113_bound_partial (s : Schema) (L : Nat) (hL : ∀ n d, .namespace n d ∈ s.elements → n.length ≤ L) :
    (Nested.build s).deep ≤ 8 + 5 * s.elements.countP isNest + Parse.Stack.nestSchema s + 2 * L := by
  have := build_deep (keeps_any s) ⟨Nat.le_refl _, fun q ct h => by cases h⟩ (vectors_nest s) hL
  rw [nestings_count] at this
  omega

/-- **C113**, for schemas in layers: what counts is how many structs and unions are inside each other, not how many there are. -/
theorem C113_layered_partial (s : Schema) (L : Nat) (hL : ∀ n d, .namespace n d ∈ s.elements → n.length ≤ L)
    (layer : Ir.Ident → Nat) (d : Nat) (hl : Timed.Layered s.elements layer d) :
    (Nested.build s).deep ≤ 9 + 5 * d + Parse.Stack.nestSchema s + 2 * L := by
  have := build_deep (Nested.keeps_layered hl) (fun q ct h => by cases h) (vectors_nest s) hL
  omega

section
attribute [local instance] Parse.asciiEnv

/-- The chain of three structs and that of four: one more struct is five frames more in the analysis and none in the parser. -/
example : Parse.schemaDecl c!"struct T{a:byte;}struct Ta{a:T;}struct Taa{a:Ta;}" = some ([], chainSchema 2) ∧
    (Nested.build (chainSchema 2)).deep = 16 ∧ (Nested.build (chainSchema 3)).deep = 21 ∧
    Parse.Stack.schemaDecl.deep (chainText 2) = Parse.Stack.schemaDecl.deep (chainText 3) :=
  ⟨chain_parse 2, by kernel_rfl, by kernel_rfl, by kernel_rfl⟩

/-- `namespace a.b.c;` `struct A{x:int;}` `struct B{x:int;}` `struct C{x:A;y:B;}` `struct D{x:B;}` `table T{a:[[C]];b:D;}` -/
private def twoLayers : Schema := ⟨[], [
  .namespace [c!"a", c!"b", c!"c"] [],
  .struct ⟨c!"A", [⟨c!"x", .builtin .int, none, none, []⟩], none, []⟩,
  .struct ⟨c!"B", [⟨c!"x", .builtin .int, none, none, []⟩], none, []⟩,
  .struct ⟨c!"C", [⟨c!"x", .ident [c!"A"], none, none, []⟩, ⟨c!"y", .ident [c!"B"], none, none, []⟩], none, []⟩,
  .struct ⟨c!"D", [⟨c!"x", .ident [c!"B"], none, none, []⟩], none, []⟩,
  .table ⟨c!"T", [⟨c!"a", .array (.array (.ident [c!"C"])), none, none, []⟩, ⟨c!"b", .ident [c!"D"], none, none, []⟩], none, []⟩]⟩

private def layerOf (i : Ir.Ident) : Nat := if i = c!"C" ∨ i = c!"D" then 1 else 0

/-- Four structs in two layers, and a namespace of three parts. -/
example : Timed.Layered twoLayers.elements layerOf 1 ∧ (∀ n d, .namespace n d ∈ twoLayers.elements → n.length ≤ 3) ∧
    (Nested.build twoLayers).deep = 16 ∧ twoLayers.elements.countP isNest = 4 ∧ Parse.Stack.nestSchema twoLayers = 2 := by
  refine ⟨⟨?_, by decide⟩, ?_, by kernel_rfl, by decide, by decide⟩
  · intro i; unfold layerOf; split <;> omega
  · intro n d h
    simp only [twoLayers, List.mem_cons, List.not_mem_nil, or_false, reduceCtorEq, Element.namespace.injEq] at h
    rw [h.1]
    decide

end

end Butte
