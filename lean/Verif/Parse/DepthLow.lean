import Verif.Parse.DepthDecl
import Verif.Parse.DepthConst
import Verif.Parse.StepsLow
/-
The parser with a stack gives the results of the parser, and texts that nest as deeply as one likes.
-/
namespace Butte.Parse.Stack

open Ast

variable [Env]

theorem fieldDecl_run : fieldDecl.run = Parse.fieldDecl := by
  unfold Parse.fieldDecl
  rw [← type_run]
  rfl

theorem productDecl_run (kw : Str) : (productDecl kw).run = Parse.productDecl kw := by
  unfold Parse.productDecl Parse.productTypeBody
  rw [← fieldDecl_run]
  rfl

theorem enumDecl_run : enumDecl.run = Parse.enumDecl := by
  unfold Parse.enumDecl
  rw [← type_run]
  rfl

theorem object_run : object.run = Parse.object := by
  unfold Parse.object
  rw [← value_run]
  rfl

theorem element_run : element.run = Parse.element := by
  unfold Parse.element
  rw [← productDecl_run, ← productDecl_run, ← enumDecl_run, ← object_run]
  rfl

theorem schemaDecl_run : schemaDecl.run = Parse.schemaDecl := by
  unfold Parse.schemaDecl
  rw [← element_run]
  rfl

/-! ### Lists in lists -/

/-- `[[…]]` -/
def lists : Nat → Str
  | 0 => c!"[]"
  | n + 1 => '[' :: (lists n ++ c!"]")

/-- The value of that text. -/
def listsValue : Nat → Value
  | 0 => .list []
  | n + 1 => .list [listsValue n]

/-- `{a:[[…]]}` -/
def listsText (n : Nat) : Str := '{' :: 'a' :: ':' :: (lists n ++ c!"}")

def listsSchema (n : Nat) : Schema := ⟨[], [.object [(c!"a", listsValue n)] []]⟩

theorem lists_text : ∀ n, ValueText (listsValue n) (lists n)
  | 0 => .emptyList (w := []) .nil
  | n + 1 => by
    have := ValueText.list (w₁ := []) (w₂ := []) .nil (.one (lists_text n)) .nil
    simpa only [listsValue, lists, List.nil_append] using this

omit [Env] in
theorem lists_mem : ∀ n, ∀ c ∈ lists n, c = '[' ∨ c = ']'
  | 0, c, h => by simp only [lists, List.mem_cons, List.not_mem_nil, or_false] at h; exact h
  | n + 1, c, h => by
    simp only [lists, List.mem_cons, List.mem_append, List.not_mem_nil, or_false] at h
    rcases h with h | h | h
    · exact .inl h
    · exact lists_mem n c h
    · exact .inr h

omit [Env] in
theorem lists_length : ∀ n, (lists n).length = 2 * n + 2
  | 0 => rfl
  | n + 1 => by simp only [lists, List.length_cons, List.length_append, lists_length n, List.length_nil]; omega

omit [Env] in
theorem lists_nest : ∀ n, nestValue (listsValue n) = n + 1
  | 0 => by simp only [listsValue, nestValue, nestValues]
  | n + 1 => by simp only [listsValue, nestValue, nestValues, lists_nest n]; omega

theorem lists_noSpecial (n : Nat) : NoSpecial (listsText n) := by
  intro w hw a b e
  exfalso
  have hn : 'n' ∈ w := by
    simp only [List.mem_cons, List.not_mem_nil, or_false] at hw
    rcases hw with rfl | rfl | rfl <;> decide
  have h : 'n' ∈ listsText n := by rw [e]; simp [hn]
  simp only [listsText, List.mem_cons, List.mem_append, List.not_mem_nil, or_false] at h
  rcases h with h | h | h | h | h
  · revert h; decide
  · revert h; decide
  · revert h; decide
  · rcases lists_mem n _ h with h | h <;> revert h <;> decide
  · revert h; decide

theorem lists_accepted (n : Nat) : Parse.schemaDecl (listsText n) = some ([], listsSchema n) := by
  have ho : ObjectText [(c!"a", listsValue n)] [] (listsText n) := by
    have := ObjectText.some (w₁ := []) (w₂ := []) DocText.nil .nil
      (.one (w₁ := []) (w₂ := []) Timed.ident_a .nil .nil (lists_text n)) .nil
    simpa [listsText] using this
  have ht : SchemaText (listsSchema n) (listsText n) := by
    have := SchemaText.mk (s := listsSchema n) (w := []) (is := []) (es := listsText n ++ ([] ++ [])) (e := []) (.inr (by simp [listsSchema]))
      .nil .nil (.cons (ElementText.object ho) .nil .nil) .none
    simpa using this
  refine schemaDecl_eq ht ?_ (lists_noSpecial n)
  intro x hx
  simp only [listsSchema, List.mem_singleton] at hx
  subst hx
  trivial

end Butte.Parse.Stack
