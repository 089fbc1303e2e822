import Verif.Ir.StepsLow
import Verif.Parse.SoundDecl
/-
Sizes against the text of a schema: what is written is at least as long as it has nodes, and the tower of structs has a short text.
-/
namespace Butte.Ir.Timed

open Ast (Element)
open Parse

variable [Env]

/-! ### A text is at least as long as what it says -/

omit [Env] in
theorem builtinName_pos (b : Ast.Builtin) : 1 ≤ (builtinName b).length := by cases b <;> decide

theorem ident_pos {i : Str} (h : IsIdent i) : 1 ≤ i.length := by cases i with
  | nil => cases h
  | cons c cs => simp

theorem qident_pos {q : Ast.QIdent} {t : Str} (h : QIdentText q t) : 1 ≤ t.length := by
  cases h with
  | one h => obtain ⟨h, rfl⟩ := h; exact ident_pos h
  | cons h _ _ _ => simp only [List.length_append, List.length_cons]; omega

theorem ty_weight {ty : Ast.Ty} {t : Str} (h : TyText ty t) : typeWeight ty ≤ t.length := by
  induction h with
  | builtin b => exact builtinName_pos b
  | string => decide
  | array _ ih => simp only [typeWeight, List.length_cons, List.length_append]; omega
  | ident _ h => exact qident_pos h

theorem field_weight {f : Ast.Field} {t : Str} (h : FieldText f t) : typeWeight f.ty + 1 ≤ t.length := by
  cases h with
  | mk _ _ _ _ h _ _ _ _ =>
    have := ty_weight h
    simp only [List.length_append, List.length_cons]; omega

omit [Env] in
theorem many_weight {α : Type} {R : α → Str → Prop} {w : α → Nat} {l : List α} {t : Str}
    (hR : ∀ a t, R a t → w a ≤ t.length) (h : ManyText R l t) : (l.map w).sum ≤ t.length := by
  induction h with
  | nil => simp
  | cons h _ _ ih =>
    have := hR _ _ h
    simp only [List.map_cons, List.sum_cons, List.length_append]; omega

theorem product_weight {kw : Str} {p : Ast.Product} {t : Str} (h : ProductText kw p t) : fieldsWeight p.fields + 1 ≤ t.length := by
  cases h with
  | mk _ _ _ _ _ _ _ _ h =>
    have := many_weight (w := fun f : Ast.Field => typeWeight f.ty + 1) (fun _ _ => field_weight) h
    simp only [List.length_append, List.length_cons, fieldsWeight] at *; omega

theorem variants_weight {vs : List Ast.EnumVariant} {t : Str} (h : SepText ',' VariantText vs t) : 2 * vs.length ≤ t.length + 1 := by
  have key : ∀ v t, VariantText v t → 1 ≤ t.length := by
    rintro v t ⟨_, h, _⟩
    have := ident_pos h
    simp only [List.length_append]; omega
  induction h with
  | one h => have := key _ _ h; simp; omega
  | cons h _ _ _ ih =>
    have := key _ _ h
    simp only [List.length_append, List.length_cons]; omega

theorem body_weight {vs : List Ast.EnumVariant} {t : Str} (h : BodyText vs t) : 2 * vs.length ≤ t.length := by
  cases h with
  | plain _ _ h _ => have := variants_weight h; simp only [List.length_append, List.length_cons]; omega
  | comma _ _ h _ _ => have := variants_weight h; simp only [List.length_append, List.length_cons]; omega

theorem element_weight {el : Element} {t : Str} (h : ElementText el t) : weight el ≤ t.length := by
  have hk : ∀ {kw : Str} {gap : Bool} {d : Ast.Comment} {s t : Str}, KeywordText kw gap d s t → 1 ≤ t.length := by
    rintro kw gap d s t ⟨_, _, _, _⟩
    simp only [List.length_append, List.length_cons]; omega
  cases h with
  | «namespace» _ h => exact hk h
  | table h => exact product_weight h
  | struct h => exact product_weight h
  | enum h =>
    cases h with
    | mk _ _ _ _ _ _ _ _ h =>
      have := body_weight h
      simp only [weight, List.length_append, List.length_cons]; omega
  | union h =>
    cases h with
    | mk _ _ _ _ _ _ h =>
      have := body_weight h
      simp only [weight, List.length_append, List.length_cons]; omega
  | root _ h => exact hk h
  | fileExtension _ h => exact hk h
  | fileIdentifier _ h => exact hk h
  | «attribute» _ h => exact hk h
  | rpc h =>
    cases h with
    | mk _ _ _ _ _ _ _ h =>
      have := many_weight (w := fun _ : Ast.RpcMethod => 1) (fun r t h => by
        cases h; simp only [List.length_append, List.length_cons]; omega) h
      simp only [List.map_const', List.sum_replicate_nat, Nat.mul_one] at this
      simp only [weight, List.length_append, List.length_cons]; omega
  | object h =>
    cases h with
    | empty _ _ => simp only [weight, List.length_append, List.length_cons]; omega
    | some _ _ _ _ => simp only [weight, List.length_append, List.length_cons]; omega

theorem schema_weight {s : Ast.Schema} {t : Str} (h : SchemaText s t) : schemaWeight s ≤ t.length := by
  cases h with
  | empty => simp [schemaWeight]
  | mk _ _ _ h _ =>
    have := many_weight (w := weight) (fun _ _ => element_weight) h
    simp only [schemaWeight, List.length_append]; omega

/-! ### The text of the tower -/

/-- The fields of the `k`th struct. -/
def towerBody : Nat → Str
  | 0 => c!"a:byte;"
  | k + 1 => c!"a:" ++ (towerName k ++ (c!";b:" ++ (towerName k ++ c!";")))

/-- The `k`th struct. -/
def towerOne (k : Nat) : Str := c!"struct " ++ (towerName k ++ ('{' :: (towerBody k ++ c!"}")))

/-- The structs from the `k`th on. -/
def towerFrom (k : Nat) : Nat → Str
  | 0 => []
  | m + 1 => towerOne k ++ towerFrom (k + 1) m

/-- The text of the tower. -/
def towerText (n : Nat) : Str := towerFrom 0 (n + 1)

omit [Env] in
theorem tower_length (k m : Nat) : (towerFrom k m).length ≤ m * (3 * (k + m) + 30) := by
  induction m generalizing k with
  | zero => simp [towerFrom]
  | succ m ih =>
    have h1 : (towerOne k).length ≤ 3 * k + 30 := by
      cases k with
      | zero => decide
      | succ k => simp only [towerOne, towerBody, towerName, List.length_append, List.length_cons, List.length_replicate, List.length_nil]; omega
    have := ih (k + 1)
    rw [show k + 1 + m = k + (m + 1) by omega] at this
    rw [towerFrom, List.length_append, Nat.add_mul m]
    omega

theorem letter (c : Char) (h : c.toNat < 128) (h2 : (c.isAlpha : Bool) = true) : Env.alphabetic c = true := by
  rw [Env.alphabetic_ascii _ h]; exact h2

theorem tower_isIdent (k : Nat) : IsIdent (towerName k) := by
  refine ⟨.inl (letter 'T' (by decide) (by decide)), fun d hd => ?_⟩
  rw [List.eq_of_mem_replicate hd]
  exact .inl (letter 'a' (by decide) (by decide))

omit [Env] in
theorem tower_plain (k : Nat) : Plain (towerName k) := by
  refine ⟨fun b h => ?_, fun h => ?_⟩
  · cases b <;> simp [builtinName, towerName] at h
  · simp [towerName] at h

theorem byte_field : FieldText (towerField c!"a" (.builtin .byte)) c!"a:byte;" :=
  FieldText.mk (f := towerField c!"a" (.builtin .byte)) (w₁ := []) (w₂ := []) (w₃ := []) (w₄ := []) .nil
    ⟨.inl (letter 'a' (by decide) (by decide)), fun _ h => by cases h⟩ .nil .nil (.builtin .byte) .none .nil .none .nil

theorem tower_field (n : Char) (h1 : n.toNat < 128) (h2 : n.isAlpha = true) (k : Nat) :
    FieldText (towerField [n] (.ident [towerName k])) (n :: ':' :: (towerName k ++ c!";")) := by
  have := FieldText.mk (f := towerField [n] (.ident [towerName k])) (w₁ := []) (w₂ := []) (w₃ := []) (w₄ := []) .nil
    ⟨.inl (letter n h1 h2), fun _ h => by cases h⟩ .nil .nil
    (.ident (tower_plain k) (.one ⟨tower_isIdent k, rfl⟩)) .none .nil .none .nil
  simpa [towerField] using this

theorem tower_body : ∀ k, ManyText FieldText (towerAst k) (towerBody k)
  | 0 => by
    have := ManyText.cons (w := []) byte_field .nil .nil
    simpa [towerAst, towerBody] using this
  | k + 1 => by
    have := ManyText.cons (w := []) (tower_field 'a' (by decide) (by decide) k) .nil
      (ManyText.cons (w := []) (tower_field 'b' (by decide) (by decide) k) .nil .nil)
    simpa [towerAst, towerBody] using this

theorem tower_one (k : Nat) : ElementText (towerDecl k) (towerOne k) := by
  have := ElementText.struct (ProductText.mk (kw := c!"struct") (p := ⟨towerName k, towerAst k, none, []⟩) (w₁ := c!" ") (w₂ := []) (w₃ := [])
    (w₄ := []) .nil (.space (.inl rfl) .nil) (by simp) (tower_isIdent k) .nil .none .nil .nil (tower_body k))
  simpa [towerDecl, towerOne] using this

theorem tower_from (k m : Nat) : ManyText ElementText ((List.range' k m).map towerDecl) (towerFrom k m) := by
  induction m generalizing k with
  | zero => exact .nil
  | succ m ih =>
    have := ManyText.cons (w := []) (tower_one k) .nil (ih (k + 1))
    simpa [List.range'_succ, towerFrom] using this

theorem tower_text (n : Nat) : SchemaText (towerSchema n) (towerText n) := by
  have := SchemaText.mk (s := towerSchema n) (w := []) (is := []) (es := towerText n) (e := []) (.inr (by simp [towerSchema])) .nil .nil
    (by rw [towerSchema, List.range_eq_range']; exact tower_from 0 (n + 1)) .none
  simpa using this

omit [Env] in
theorem tower_chars (k m : Nat) : ∀ c ∈ towerFrom k m, c ≠ 'n' := by
  have h0 : ∀ k, ∀ c ∈ towerName k, c ≠ 'n' := by
    intro k c h
    rcases List.mem_cons.mp h with rfl | h
    · decide
    · rw [List.eq_of_mem_replicate h]; decide
  have h1 : ∀ k, ∀ c ∈ towerOne k, c ≠ 'n' := by
    intro k c h
    cases k with
    | zero => revert c; decide
    | succ k =>
      simp only [towerOne, towerBody, List.mem_append, List.mem_cons, List.not_mem_nil, or_false] at h
      have a := h0 k c
      have b := h0 (k + 1) c
      by_cases e : c = 'n'
      · subst e
        have a' : ¬ 'n' ∈ towerName k := fun h => a h rfl
        have b' : ¬ 'n' ∈ towerName (k + 1) := fun h => b h rfl
        simp [a', b'] at h
      · exact e
  induction m generalizing k with
  | zero => intro c h; cases h
  | succ m ih =>
    intro c h
    rcases List.mem_append.mp h with h | h
    · exact h1 k c h
    · exact ih (k + 1) c h

theorem tower_parse (n : Nat) : Parse.schemaDecl (towerText n) = some ([], towerSchema n) := by
  refine schemaDecl_eq (tower_text n) ?_ ?_
  · intro el hel
    simp only [towerSchema, List.mem_map] at hel
    obtain ⟨k, -, rfl⟩ := hel
    intro f hf
    cases k with
    | zero => simp only [towerAst, List.mem_singleton] at hf; subst hf; trivial
    | succ k =>
      simp only [towerAst, List.mem_cons, List.not_mem_nil, or_false] at hf
      rcases hf with rfl | rfl <;> trivial
  · intro w hw a b e
    exfalso
    have hn : 'n' ∈ w := by
      simp only [List.mem_cons, List.not_mem_nil, or_false] at hw
      rcases hw with rfl | rfl | rfl <;> decide
    exact tower_chars 0 (n + 1) 'n' (by rw [show towerFrom 0 (n + 1) = a ++ (w ++ b) from e]; simp [hn]) rfl

/-! ### Powers of two outgrow polynomials -/

omit [Env] in
theorem lt_two_pow' (n : Nat) : n + 1 ≤ 2 ^ n := Nat.lt_two_pow_self

omit [Env] in
/-- Beyond every polynomial in the length of the tower's text there is a power of two. -/
theorem outgrows (K e : Nat) : ∃ n, K * ((n + 1) * (3 * (n + 1) + 30) + 1) ^ e < 2 ^ n := by
  -- n = 2 ^ (2 i), i large
  let i := K + 20 * e + 20
  let n := 2 ^ (2 * i)
  refine ⟨n, ?_⟩
  have h1 : (n + 1) * (3 * (n + 1) + 30) + 1 ≤ 2 ^ (4 * i + 8) := by
    have hn : 1 ≤ n := Nat.one_le_two_pow
    have e1 : 2 ^ (4 * i + 8) = 256 * (n * n) := by
      rw [Nat.pow_add, show 4 * i = 2 * i + 2 * i by omega, Nat.pow_add]
      show n * n * 256 = _
      rw [Nat.mul_comm]
    rw [e1]
    have h2 : n ≤ n * n := Nat.le_mul_of_pos_left _ hn
    have e2 : (n + 1) * (3 * (n + 1) + 30) + 1 = 3 * (n * n) + 36 * n + 34 := by
      simp only [Nat.mul_add, Nat.add_mul, Nat.mul_left_comm n 3]; omega
    omega
  have h3 : K * ((n + 1) * (3 * (n + 1) + 30) + 1) ^ e < 2 ^ (K + (4 * i + 8) * e) := by
    rw [Nat.pow_add, Nat.pow_mul]
    have hpos : 0 < (2 ^ (4 * i + 8)) ^ e := Nat.pow_pos (Nat.two_pow_pos _)
    calc K * ((n + 1) * (3 * (n + 1) + 30) + 1) ^ e ≤ K * (2 ^ (4 * i + 8)) ^ e := Nat.mul_le_mul_left _ (Nat.pow_le_pow_left h1 e)
      _ < 2 ^ K * (2 ^ (4 * i + 8)) ^ e := Nat.mul_lt_mul_of_pos_right Nat.lt_two_pow_self hpos
  refine Nat.lt_of_lt_of_le h3 (Nat.pow_le_pow_right (by omega) ?_)
  have h4 : i + 1 ≤ 2 ^ i := Nat.lt_two_pow_self
  have h5 : (i + 1) * (i + 1) ≤ n := by
    show _ ≤ 2 ^ (2 * i)
    rw [show 2 * i = i + i by omega, Nat.pow_add]
    exact Nat.mul_le_mul h4 h4
  have e3 : (i + 1) * (i + 1) = i * i + 2 * i + 1 := by simp only [Nat.mul_add, Nat.add_mul]; omega
  have e4 : i * i = i * K + 20 * (i * e) + i * 20 := by
    show i * (K + 20 * e + 20) = _
    rw [Nat.mul_add, Nat.mul_add, Nat.mul_left_comm]
  have e5 : (4 * i + 8) * e = 4 * (i * e) + 8 * e := by rw [Nat.add_mul, Nat.mul_assoc]
  have h6 : 20 * e ≤ i := by show _ ≤ K + 20 * e + 20; omega
  have h7 : K ≤ i := by show _ ≤ K + 20 * e + 20; omega
  omega

end Butte.Ir.Timed
