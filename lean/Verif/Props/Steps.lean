import Verif.Parse.StepsConstants
import Verif.Parse.StepsLow
import Verif.Parse.Ascii
import Verif.Tests.Kernel
/-
C99: how long parsing takes.

`Parse.Timed.schemaDecl` is the parser again, written so that it counts: one step for every call of a combinator, one for every
character looked at and one for every character that is given to a conversion.
-/
namespace Butte

open Parse

/-- **C99.** The counting parser gives what the parser gives, on every text. -/
theorem C99_result [Env] (i : Str) : (Timed.schemaDecl i).val = Parse.schemaDecl i := Timed.schemaDecl_meets.val i

/-- **C99.** Parsing any text, whether it is accepted or not and however deeply it is nested, takes a number of steps that is bounded
by a polynomial in its length. -/
theorem C99_bound [Env] (i : Str) : (Timed.schemaDecl i).steps ≤ 349011 * (i.length + 1) ^ 6 := by
  rw [← Timed.schemaDecl_constant]
  exact Timed.schemaDecl_meets.steps i.length i (Nat.le_refl _)

/-- **C99.** The steps are not forgotten: every character that was read was counted. -/
theorem C99_reads [Env] (i r : Str) (s : Ast.Schema) (h : (Timed.schemaDecl i).val = some (r, s)) :
    i.length ≤ r.length + (Timed.schemaDecl i).steps := Timed.schemaDecl_meets.reads i r s h

/-- **C99.** There are accepted texts of any length on which the number of steps is at least quadratic: an object `{a:0,a:0,…}`, as
every number makes the parser search the rest of the text for `nan`. -/
theorem C99_quadratic [Env] (n : Nat) : ∃ t s, t.length = 4 * n + 5 ∧ Parse.schemaDecl t = some ([], s) ∧
    t.length * t.length ≤ 25 * (Timed.schemaDecl t).steps := by
  have hl : (Timed.zerosText n).length = 4 * n + 5 := by
    simp only [Timed.zerosText, List.length_cons, Timed.zeros_length]
  refine ⟨_, _, hl, Timed.schema_eq n, ?_⟩
  have h := Timed.schema_ge n
  have e : (4 * n + 5) * (4 * n + 5) + (34 * (n * n) + 35 * n) = 25 * (n * (2 * n) + 3 * n + 1) := by
    have : n * (2 * n) = 2 * (n * n) := by rw [Nat.mul_left_comm]
    simp only [Nat.mul_add, Nat.add_mul, this, Nat.mul_assoc, Nat.mul_left_comm n 4]
    omega
  rw [hl]
  omega

/-- **C99.** So no bound that is linear in the length holds. -/
theorem C99_linear_false [Env] : ¬ ∃ C, ∀ i : Str, (Timed.schemaDecl i).steps ≤ C * (i.length + 1) := by
  rintro ⟨C, h⟩
  obtain ⟨t, s, hl, -, h1⟩ := C99_quadratic (50 * C)
  have h2 := h t
  rw [hl] at h1 h2
  have h3 : (4 * (50 * C) + 5) * (4 * (50 * C) + 5) ≤ 25 * (C * (4 * (50 * C) + 5 + 1)) := Nat.le_trans h1 (Nat.mul_le_mul_left _ h2)
  have e1 : (4 * (50 * C) + 5) * (4 * (50 * C) + 5) = 40000 * (C * C) + 2000 * C + 25 := by
    simp only [Nat.mul_add, Nat.add_mul, Nat.mul_assoc, Nat.mul_left_comm C]
    omega
  have e2 : 25 * (C * (4 * (50 * C) + 5 + 1)) = 5000 * (C * C) + 150 * C := by
    simp only [Nat.mul_add, Nat.mul_left_comm C]
    omega
  omega

section
attribute [local instance] asciiEnv

/-- A text of nineteen characters that is accepted. -/
example : (Timed.schemaDecl c!"table T{a:[int]=0;}").steps = 1312 ∧ ((Timed.schemaDecl c!"table T{a:[int]=0;}").val.map (·.1)) = some [] :=
  ⟨by kernel_rfl, by kernel_rfl⟩

/-- One of fifteen characters, of which the parser accepts nothing. -/
example : (Timed.schemaDecl c!"{a:[[[[[[[[{b:[").steps = 2126 ∧
    ((Timed.schemaDecl c!"{a:[[[[[[[[{b:[").val.map (·.1)) = some c!"{a:[[[[[[[[{b:[" := ⟨by kernel_rfl, by kernel_rfl⟩
end

end Butte
