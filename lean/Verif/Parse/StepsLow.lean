import Verif.Parse.StepsDecl
import Verif.Parse.Complete
/-
A text on which the parser takes a number of steps that is quadratic in its length: for every number, it searches the rest of the
text for `nan`.
-/
namespace Butte.Parse.Timed

open Ast

variable {α β γ : Type}

/-! ### Steps of the parts -/

theorem map_ge (c : CP α) (f : α → β) (i : Str) : (c i).steps ≤ (map c f i).steps := by
  simp only [map, bind_steps, tick_steps]; omega

theorem alt_ge_left (c d : CP α) (i : Str) : (c i).steps ≤ (alt c d i).steps := by
  simp only [alt, bind_steps, tick_steps]; omega

theorem alt_ge_right {c : CP α} {i : Str} (h : (c i).val = none) (d : CP α) : (d i).steps ≤ (alt c d i).steps := by
  simp only [alt, bind_steps, tick_steps, h]; omega

theorem pair_ge_left (c : CP α) (d : CP β) (i : Str) : (c i).steps ≤ (pair c d i).steps := by
  simp only [pair, bind_steps, tick_steps]; omega

theorem pair_ge_right {c : CP α} {i r : Str} {a : α} (h : (c i).val = some (r, a)) (d : CP β) :
    (d r).steps ≤ (pair c d i).steps := by rw [pair_steps_some h]; omega

theorem preceded_ge {c : CP α} {i r : Str} {a : α} (h : (c i).val = some (r, a)) (d : CP β) :
    (d r).steps ≤ (preceded c d i).steps := Nat.le_trans (pair_ge_right h d) (map_ge _ _ _)

theorem terminated_ge (c : CP α) (d : CP β) (i : Str) : (c i).steps ≤ (terminated c d i).steps :=
  Nat.le_trans (pair_ge_left c d i) (map_ge _ _ _)

theorem delimited_ge {c : CP α} {i r : Str} {a : α} (h : (c i).val = some (r, a)) (d : CP β) (b : CP γ) :
    (d r).steps ≤ (delimited c d b i).steps := Nat.le_trans (terminated_ge d b r) (preceded_ge h _)

theorem many0_ge (c : CP α) (i : Str) : (c i).steps ≤ (many0 c i).steps := by
  simp only [many0, manyGo, bind_steps, tick_steps]; omega

variable [Env]

/-- A value that does not begin with a sign is searched to the end of the text. -/
theorem value_ge {i : Str} (h : Parse.opt Parse.plusOrMinus i = some (i, none)) : i.length ≤ (value_ i).steps := by
  have h1 : i.length ≤ (nan i).steps := by
    refine Nat.le_trans ?_ (map_ge _ _ _)
    refine Nat.le_trans ?_ (map_ge _ _ _)
    refine Nat.le_trans ?_ (pair_ge_right (r := i) (a := none) ((opt_meets plusOrMinus_meets).val i ▸ h) _)
    simp only [reMatch, bind_steps, tick_steps]; omega
  have h2 : (nan i).steps ≤ (floatConstant i).steps := Nat.le_trans (alt_ge_left _ _ _) (alt_ge_left _ _ _)
  have h3 : (floatConstant i).steps ≤ (scalar i).steps := Nat.le_trans (map_ge _ _ _) (alt_ge_left _ _ _)
  have h4 : (scalar i).steps ≤ (single i).steps := Nat.le_trans (map_ge _ _ _) (alt_ge_left _ _ _)
  have h5 : (single i).steps ≤ (value_ i).steps := Nat.le_trans (map_ge _ _ _) (alt_ge_left _ _ _)
  omega

/-! ### An object with many members -/

/-- `,a:0,a:0,…}` -/
def zeros : Nat → Str
  | 0 => c!"}"
  | n + 1 => ',' :: 'a' :: ':' :: '0' :: zeros n

/-- `{a:0,a:0,…}` -/
def zerosText (n : Nat) : Str := '{' :: 'a' :: ':' :: '0' :: zeros n

def zero : Value := .single (.scalar (.integer 0))

/-- The object of the text. -/
def zerosSchema (n : Nat) : Schema := ⟨[], [.object (List.replicate (n + 1) (c!"a", zero)) []]⟩

omit [Env] in
theorem zeros_length : ∀ n, (zeros n).length = 4 * n + 1
  | 0 => rfl
  | n + 1 => by simp only [zeros, List.length_cons, zeros_length n]; omega

omit [Env] in
theorem zeros_mem : ∀ n, ∀ c ∈ zeros n, c ∈ c!"{,a:0}"
  | 0, c, h => by simp only [zeros, List.mem_singleton] at h; subst h; decide
  | n + 1, c, h => by
    simp only [zeros, List.mem_cons] at h
    rcases h with rfl | rfl | rfl | rfl | h
    · decide
    · decide
    · decide
    · decide
    · exact zeros_mem n c h

theorem noSpecial_of {t : Str} (h : ∀ c ∈ t, c ∈ c!"{,a:0}") : NoSpecial t := by
  intro w hw a b e
  exfalso
  have hn : 'n' ∈ w := by
    simp only [List.mem_cons, List.not_mem_nil, or_false] at hw
    rcases hw with rfl | rfl | rfl <;> decide
  have := h 'n' (by rw [e]; simp [hn])
  revert this
  decide

omit [Env] in
theorem zeros_next (n : Nat) : Next c!",}]" (zeros n) := by
  cases n with
  | zero => exact ⟨[], '}', [], .nil, by decide, rfl⟩
  | succ n => exact ⟨[], ',', _, .nil, by decide, rfl⟩

theorem zeroText : ValueText zero c!"0" :=
  .single (.scalar (.integer (IntText.dec (neg := false) (sg := []) (ds := c!"0") .none (by intro c h; simp only [List.mem_singleton] at h; subst h; rfl) (by decide) (by decide) (by decide))))

theorem ident_a : IsIdent c!"a" := ⟨.inl (by rw [Env.alphabetic_ascii _ (by decide)]; decide), fun _ h => by cases h⟩

theorem zeroPair : PairGood (c!"a", zero) c!"a:0" := ⟨[], [], c!"0", ident_a, .nil, .nil, zeroText, value_eq' zeroText, rfl⟩

theorem member_eq (n : Nat) : Parse.separatedPair Parse.ident (Parse.delimited Parse.cos0 (Parse.char ':') Parse.cos0) Parse.value_
    ('a' :: ':' :: '0' :: zeros n) = some (zeros n, (c!"a", zero)) :=
  pair_good_eq zeroPair (zeros_next n) (noSpecial_of (by
    intro c hc
    simp only [List.cons_append, List.nil_append, List.mem_cons] at hc
    rcases hc with rfl | rfl | rfl | h
    · decide
    · decide
    · decide
    · exact zeros_mem n c h))

theorem member_ge (n : Nat) : (zeros n).length ≤
    (separatedPair ident (delimited cos0 (char ':') cos0) value_ ('a' :: ':' :: '0' :: zeros n)).steps := by
  have h1 : Parse.ident ('a' :: ':' :: '0' :: zeros n) = some (':' :: '0' :: zeros n, c!"a") :=
    ident_eq (r := ':' :: '0' :: zeros n) ident_a (Follow.delim ⟨[], ':', _, .nil, by decide, rfl⟩).stops
  have h2 : Parse.delimited Parse.cos0 (Parse.char ':') Parse.cos0 (':' :: '0' :: zeros n) = some ('0' :: zeros n, ':') :=
    Parse.delimited_eq (cos0_solid (solid_cons (by decide) (by decide))) (char_eq _ _) (cos0_solid (solid_cons (by decide) (by decide)))
  refine Nat.le_trans ?_ (pair_ge_right ((ident_meets.val _).trans h1) _)
  refine Nat.le_trans ?_ (preceded_ge (((sep_meets ':').val _).trans h2) _)
  refine Nat.le_trans ?_ (value_ge rfl)
  simp

omit [Env] in
theorem comma_eq (n : Nat) : Parse.delimited Parse.cos0 (Parse.char ',') Parse.cos0 (',' :: 'a' :: ':' :: '0' :: zeros n) =
    some ('a' :: ':' :: '0' :: zeros n, ',') :=
  Parse.delimited_eq (cos0_solid (solid_cons (by decide) (by decide))) (char_eq _ _) (cos0_solid (solid_cons (by decide) (by decide)))

theorem memberGives : Gives (separatedPair ident (delimited cos0 (char ':') cos0) value_)
    (Parse.separatedPair Parse.ident (Parse.delimited Parse.cos0 (Parse.char ':') Parse.cos0) Parse.value_) :=
  separatedPair_gives ident_meets.val (sep_meets ':').val value_meets_.val

theorem sepGo_ge : ∀ n fuel, n < fuel → n * (2 * n) ≤
    (sepGo (delimited cos0 (char ',') cos0) (separatedPair ident (delimited cos0 (char ':') cos0) value_) fuel (zeros n)).steps + n
  | 0, _, _ => Nat.zero_le _
  | n + 1, 0, h => by omega
  | n + 1, fuel + 1, h => by
    have ih := sepGo_ge n fuel (by omega)
    have h1 : (delimited cos0 (char ',') cos0 (zeros (n + 1))).val = _ := ((sep_meets ',').val _).trans (comma_eq n)
    have h2 := (memberGives _).trans (member_eq n)
    have h3 := member_ge n
    rw [zeros_length] at h3
    have ne1 : 'a' :: ':' :: '0' :: zeros n ≠ zeros (n + 1) := by simp [zeros]
    have ne2 : zeros n ≠ zeros (n + 1) := by
      intro e
      have := congrArg List.length e
      simp only [zeros_length] at this
      omega
    have e : (n + 1) * (2 * (n + 1)) = n * (2 * n) + (4 * n + 2) := by
      simp only [Nat.mul_add, Nat.add_mul]; omega
    rw [e]
    simp only [sepGo, bind_steps, tick_steps, h1]
    rw [if_neg ne1]
    simp only [bind_steps, h2]
    rw [if_neg ne2]
    simp only [bind_steps]
    omega

theorem object_ge (n : Nat) : n * (2 * n) + 3 * n + 1 ≤ (object (zerosText n)).steps := by
  have h0 : Parse.docComment (zerosText n) = some (zerosText n, []) := doc_stays rfl
  refine Nat.le_trans ?_ (pair_ge_right ((docComment_meets.val _).trans h0) _)
  have h1 : Parse.terminated (Parse.char '{') Parse.cos0 (zerosText n) = some ('a' :: ':' :: '0' :: zeros n, '{') :=
    terminated_eq (char_eq _ _) (cos0_solid (solid_cons (by decide) (by decide)))
  refine Nat.le_trans ?_ (delimited_ge ((terminated_gives (char_meets '{').val cos0_meets.val _).trans h1) _ _)
  have h2 := (memberGives _).trans (member_eq n)
  have h3 := member_ge n
  have ih := sepGo_ge n ((zeros n).length + 1) (by rw [zeros_length]; omega)
  have ne : zeros n ≠ 'a' :: ':' :: '0' :: zeros n := by
    intro e
    have := congrArg List.length e
    simp only [List.length_cons] at this
    omega
  simp only [sepList0, bind_steps, tick_steps, h2]
  rw [if_neg ne]
  simp only [bind_steps]
  rw [zeros_length] at h3
  omega

theorem object_headed (n : Nat) : Headed c!"{" (zerosText n) := ⟨[], [], 'a' :: ':' :: '0' :: zeros n, .nil, rfl⟩

theorem element_ge (n : Nat) : (object (zerosText n)).steps ≤ (element (zerosText n)).steps := by
  have hh := object_headed n
  have hk : Tok c!"{" := tok_cons _ _
  refine Nat.le_trans ?_ (alt_ge_right (((map_meets namespaceDecl_meets _).val _).trans (map_none (hh.namespace_none hk (by decide) (by decide)))) _)
  refine Nat.le_trans ?_ (alt_ge_right (((map_meets (productDecl_meets _) _).val _).trans (map_none (hh.product_none hk (by decide) (by decide)))) _)
  refine Nat.le_trans ?_ (alt_ge_right (((map_meets (productDecl_meets _) _).val _).trans (map_none (hh.product_none hk (by decide) (by decide)))) _)
  refine Nat.le_trans ?_ (alt_ge_right (((map_meets enumDecl_meets _).val _).trans (map_none (hh.enum_none hk (by decide) (by decide)))) _)
  refine Nat.le_trans ?_ (alt_ge_right (((map_meets unionDecl_meets _).val _).trans (map_none (hh.union_none hk (by decide) (by decide)))) _)
  refine Nat.le_trans ?_ (alt_ge_right (((map_meets rootDecl_meets _).val _).trans (map_none (hh.root_none hk (by decide) (by decide)))) _)
  refine Nat.le_trans ?_ (alt_ge_right (((map_meets fileExtensionDecl_meets _).val _).trans (map_none (hh.extension_none hk (by decide) (by decide)))) _)
  refine Nat.le_trans ?_ (alt_ge_right (((map_meets fileIdentifierDecl_meets _).val _).trans (map_none (hh.identifier_none hk (by decide) (by decide)))) _)
  refine Nat.le_trans ?_ (alt_ge_right (((map_meets attributeDecl_meets _).val _).trans (map_none (hh.attribute_none hk (by decide) (by decide)))) _)
  refine Nat.le_trans ?_ (alt_ge_right (((map_meets rpcDecl_meets _).val _).trans (map_none (hh.rpc_none hk (by decide) (by decide)))) _)
  exact map_ge _ _ _

theorem pairsText : ∀ n, ∃ ts, PairsText (List.replicate (n + 1) (c!"a", zero)) ts ∧ 'a' :: ':' :: '0' :: zeros n = ts ++ c!"}"
  | 0 => ⟨_, .one (w₁ := []) (w₂ := []) ident_a .nil .nil zeroText, rfl⟩
  | n + 1 => by
    obtain ⟨ts, h, e⟩ := pairsText n
    refine ⟨_, .cons (v₁ := []) (v₂ := []) (w₁ := []) (w₂ := []) ident_a .nil .nil zeroText .nil .nil h, ?_⟩
    simp [zeros, e]

theorem zeros_noSpecial (n : Nat) : NoSpecial (zerosText n) := noSpecial_of (by
  intro c hc
  simp only [zerosText, List.mem_cons] at hc
  rcases hc with rfl | rfl | rfl | rfl | h
  · decide
  · decide
  · decide
  · decide
  · exact zeros_mem n c h)

theorem schema_eq (n : Nat) : Parse.schemaDecl (zerosText n) = some ([], zerosSchema n) := by
  obtain ⟨ts, h, e⟩ := pairsText n
  have ho : ObjectText (List.replicate (n + 1) (c!"a", zero)) [] (zerosText n) := by
    have := ObjectText.some (w₁ := []) (w₂ := []) DocText.nil .nil h .nil
    simpa [zerosText, e] using this
  have ht : SchemaText (zerosSchema n) (zerosText n) := by
    have := SchemaText.mk (s := zerosSchema n) (w := []) (is := []) (es := zerosText n ++ ([] ++ [])) (e := []) (.inr (by simp [zerosSchema]))
      .nil .nil (.cons (ElementText.object ho) .nil .nil) .none
    simpa using this
  refine schemaDecl_eq ht ?_ (zeros_noSpecial n)
  intro x hx
  simp only [zerosSchema, List.mem_singleton] at hx
  subst hx
  trivial

theorem schema_ge (n : Nat) : n * (2 * n) + 3 * n + 1 ≤ (schemaDecl (zerosText n)).steps := by
  have h1 : Parse.cos0 (zerosText n) = some (zerosText n, ()) := cos0_solid (solid_cons (by decide) (by decide))
  have h2 : Parse.many0 (Parse.delimited Parse.cos0 Parse.includeDecl Parse.cos0) (zerosText n) = some (zerosText n, []) := by
    rw [many0_eq (spaced_strict includeDecl_strict).consumes, delimited_none_mid h1
      ((object_headed n).include_none (tok_cons _ _) (by decide) (by decide))]
  refine Nat.le_trans (object_ge n) ?_
  refine Nat.le_trans (element_ge n) ?_
  refine Nat.le_trans ?_ (map_ge _ _ _)
  refine Nat.le_trans ?_ (pair_ge_right (((many0_meets (delimited_meets (cos0_meets.up 3) includeDecl_meets (cos0_meets.up 3))).val _).trans h2) _)
  refine Nat.le_trans ?_ (many0_ge _ _)
  exact delimited_ge ((cos0_meets.val _).trans h1) _ _

end Butte.Parse.Timed
