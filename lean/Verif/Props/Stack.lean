import Verif.Parse.DepthLow
import Verif.Parse.Ascii
/-
C103: how deep the stack of the parser gets.

`Parse.Stack.schemaDecl` is the parser again, with the number of frames that its calls put on the stack: one for every call of a
combinator, none for the rounds of a loop. `type_` and `value_` call themselves for what is inside brackets, and nothing in parser.rs
limits how often; a stack that overflows aborts the compiler (or the build script that runs it).

The statement is that the stack is bounded, whatever the text. That is refuted; what holds is that nothing but nesting makes it grow.
-/
namespace Butte

open Parse Parse.Stack Ast

/-- **C103.** The parser with a stack gives what the parser gives, on every text. -/
theorem C103_result [Env] (i : Str) : Stack.schemaDecl.run i = Parse.schemaDecl i := congrFun Stack.schemaDecl_run i

/-- **C103 is false of the code.** For every size of the stack there is a text that is accepted and needs more:
`{a:[[…[]…]]}`, of twice as many characters. -/
theorem C103_refuted [Env] (n : Nat) : ∃ t s, t.length = 2 * n + 6 ∧ Parse.schemaDecl t = some ([], s) ∧ n ≤ Stack.schemaDecl.deep t := by
  refine ⟨listsText n, listsSchema n, ?_, lists_accepted n, ?_⟩
  · simp only [listsText, List.length_cons, List.length_append, lists_length, List.length_nil]
  · have h := (schemaDecl_exact (i := listsText n) ((C103_result _).trans (lists_accepted n))).1
    refine Nat.le_trans ?_ h
    simp only [nestSchema, listsSchema, big, nestElement, nestPairs, lists_nest]
    omega

/-- **C103**, the part that holds of every text, accepted or not: the stack is bounded by the number of opening brackets. The length of the
text, the number of declarations and fields, and the length of names and comments do not matter. -/
theorem C103_bound_partial [Env] (i : Str) :
    Stack.schemaDecl.deep i ≤ 76 + 12 * i.countP (fun c => c == '[' || c == '{') := by
  have := Low.le (B := 12) (p := Stack.schemaDecl) _ i (Nat.le_refl (opens i))
  rw [schemaDecl_constant] at this
  exact this

/-- **C103**, exact for the texts that are accepted: the stack is proportional to how deeply types and the values of objects are nested in
the schema. -/
theorem C103_accepted_partial [Env] (i : Str) (s : Schema) (h : Parse.schemaDecl i = some ([], s)) :
    nestSchema s ≤ Stack.schemaDecl.deep i ∧ Stack.schemaDecl.deep i ≤ 76 + 12 * nestSchema s :=
  schemaDecl_exact ((C103_result _).trans h)

/-- **C103**, for the schemas one writes: without objects and without vectors of vectors, 88 frames are enough, however many declarations
there are. -/
theorem C103_flat_partial [Env] (i : Str) (s : Schema) (h : Parse.schemaDecl i = some ([], s))
    (hp : ∀ t, .table t ∈ s.elements ∨ .struct t ∈ s.elements → ∀ f ∈ t.fields, ∀ u, f.ty ≠ .array (.array u))
    (he : ∀ e, .enum e ∈ s.elements → ∀ u, e.baseType ≠ .array (.array u)) (ho : ∀ l d, .object l d ∉ s.elements) :
    Stack.schemaDecl.deep i ≤ 88 := by
  have big_le : ∀ {α : Type} (m : α → Nat) (l : List α), (∀ a ∈ l, m a ≤ 1) → big m l ≤ 1 := by
    intro α m l h
    induction l with
    | nil => exact Nat.zero_le _
    | cons a l ih =>
      have := h a List.mem_cons_self
      have := ih fun b hb => h b (List.mem_cons_of_mem _ hb)
      simp only [big]
      omega
  have ty : ∀ t : Ty, (∀ u, t ≠ .array (.array u)) → nestTy t ≤ 1 := by
    intro t h
    cases t with
    | array u => cases u with
      | array v => exact absurd rfl (h v)
      | _ => exact Nat.le_refl _
    | _ => exact Nat.zero_le _
  have hn : nestSchema s ≤ 1 := big_le _ _ fun e he' => by
    cases e with
    | table t => exact big_le _ _ fun f hf => ty _ (hp t (.inl he') f hf)
    | struct t => exact big_le _ _ fun f hf => ty _ (hp t (.inr he') f hf)
    | enum e => exact ty _ (he e he')
    | object l d => exact absurd he' (ho l d)
    | _ => exact Nat.zero_le _
  have := (C103_accepted_partial i s h).2
  omega

section
attribute [local instance] asciiEnv

/-- Two fields, both vectors: 64 frames, for a nesting of one. -/
example : Stack.schemaDecl.deep c!"table T{a:[int];b:[T]=0;}" = 64 ∧
    (Parse.schemaDecl c!"table T{a:[int];b:[T]=0;}").map (fun x => (x.1, nestSchema x.2)) = some ([], 1) :=
  ⟨by kernel_rfl, by kernel_rfl⟩

/-- Ten vectors around `int`: 134 frames. -/
example : Stack.schemaDecl.deep c!"table T{a:[[[[[[[[[[int]]]]]]]]]];}" = 134 ∧
    (Parse.schemaDecl c!"table T{a:[[[[[[[[[[int]]]]]]]]]];}").map (fun x => (x.1, nestSchema x.2)) = some ([], 10) :=
  ⟨by kernel_rfl, by kernel_rfl⟩

/-- A text of which nothing is accepted: the stack is used all the same. -/
example : Stack.schemaDecl.deep c!"{a:[[[[[[[[{b:[" = 131 ∧
    (Parse.schemaDecl c!"{a:[[[[[[[[{b:[").map (·.1) = some c!"{a:[[[[[[[[{b:[" := ⟨by kernel_rfl, by kernel_rfl⟩
end

end Butte
