import Verif.Parse.Compile
import Verif.Parse.Print
import Verif.Parse.Fuel
/-
When exactly type names, numbers and defaults are read: helper lemmas for C52 to C57.
-/
namespace Butte.Parse

open Ast

variable {α β : Type}

/-- A list with separators always ends, in front of something that does not continue it. -/
theorem sepRest_total {s : P β} {p : P α} (hs : Strict s) (h : Consumes p) :
    ∀ i : Str, ∃ r as, sepRest s p i = some (r, as) ∧
      (s r = none ∨ ∃ k b, s r = some (k, b) ∧ p k = none) := by
  intro i
  induction hl : i.length using Nat.strongRecOn generalizing i with
  | _ n ih =>
    rw [sepRest_eq hs.consumes h]
    cases e : s i with
    | none => exact ⟨i, [], rfl, .inl e⟩
    | some x =>
      obtain ⟨r, b⟩ := x
      have hlt := hs.ne e
      have hne : r ≠ i := fun h => by rw [h] at hlt; omega
      simp only [if_neg hne]
      cases e' : p r with
      | none => exact ⟨i, [], rfl, .inr ⟨r, b, e, e'⟩⟩
      | some y =>
        obtain ⟨r', a⟩ := y
        have hle := (h _ _ _ e').length_le
        have hne' : r' ≠ i := fun h => by rw [h] at hle; omega
        simp only [if_neg hne']
        obtain ⟨r'', as, h1, h2⟩ := ih _ (by omega) r' rfl
        exact ⟨r'', a :: as, by rw [h1]; rfl, h2⟩

/-! ### Integers -/

theorem digitsVal_foldl (b : Nat) (l : Str) : ∀ n, l.foldl (fun n c => n * b + digitVal c) n =
    n * b ^ l.length + digitsVal b l := by
  induction l with
  | nil => intro n; simp [digitsVal]
  | cons c l ih =>
    intro n
    unfold digitsVal
    rw [List.foldl_cons, List.foldl_cons, ih, ih (0 * b + digitVal c), List.length_cons, Nat.pow_succ,
      Nat.mul_comm (b ^ l.length) b]
    simp only [Nat.add_mul, Nat.zero_mul, Nat.zero_add, Nat.mul_assoc, Nat.add_assoc]

theorem digitsVal_zeros (b k : Nat) (l : Str) : digitsVal b (List.replicate k '0' ++ l) = digitsVal b l := by
  have h0 : ∀ k, digitsVal b (List.replicate k '0') = 0 := by
    intro k
    induction k with
    | zero => rfl
    | succ k ih =>
      unfold digitsVal at ih ⊢
      rw [List.replicate_succ, List.foldl_cons]
      have : (0 * b + digitVal '0') = 0 := by simp [digitVal]
      rw [this]
      exact ih
  have := digitsVal_foldl b l (digitsVal b (List.replicate k '0'))
  rw [h0, Nat.zero_mul, Nat.zero_add] at this
  unfold digitsVal at *
  rw [List.foldl_append]
  rw [← this]
  congr 1
  exact h0 k

theorem digitChar_hex : ∀ d, d < 16 → isHexDigit d.digitChar = true := by decide

theorem toDigits_hex (n : Nat) : HexDigits (Nat.toDigits 16 n) := by
  induction n using Nat.strongRecOn with
  | _ n ih =>
    by_cases h : n < 16
    · rw [Nat.toDigits_of_lt_base h]
      intro c hc
      rw [List.mem_singleton] at hc
      subst hc
      exact digitChar_hex n h
    · rw [Nat.toDigits_of_base_le (by decide) (by omega)]
      intro c hc
      rw [List.mem_append, List.mem_singleton] at hc
      rcases hc with hc | rfl
      · exact ih _ (by omega) c hc
      · exact digitChar_hex _ (by omega)

theorem mapRes_fails {p : P α} {f : α → Option β} {i r : Str} {a : α} (h : p i = some (r, a)) (hf : f a = none) :
    mapRes p f i = none := by
  unfold mapRes
  rw [h]
  simp only [hf]

theorem inI128_large {n : Nat} (h : 2 ^ 127 ≤ n) : inI128 (n : Int) = false := by
  unfold inI128
  have : ¬ (n : Int) < 2 ^ 127 := by omega
  rw [decide_eq_false this, Bool.and_false]

theorem map_eq' {p : P α} {f : α → β} {i r : Str} {a : α} {b : β} (h : p i = some (r, a)) (hf : f a = b) :
    map p f i = some (r, b) := by rw [← hf]; exact map_eq h

variable [Env]

omit [Env] in
theorem integerConstant_none {neg : Bool} {sg ds r : Str} (hs : Sign neg sg) (hd : Digits ds) (hne : ds ≠ [])
    (hr : Delim r) (h : ¬ (-(2 ^ 127) ≤ signed neg (digitsVal 10 ds) ∧ signed neg (digitsVal 10 ds) < 2 ^ 127)) :
    integerConstant (sg ++ (ds ++ r)) = none := by
  unfold integerConstant
  rw [alt_right (hexInteger_dec hs hd hne hr.hexMark)]
  unfold decIntegerConstant mapRes
  rw [decInteger_recognize hs hd hne hr.stopsDigit]
  simp only
  rw [i128FromStr_none hs hd hne h]

omit [Env] in
/-- Hexadecimal digits that are too large: only the leading zero is read. -/
theorem integerConstant_overflow {neg : Bool} {sg ds r : Str} {x : Char} (hs : Sign neg sg) (hx : x = 'x' ∨ x = 'X')
    (hd : HexDigits ds) (hne : ds ≠ []) (hr : Stops isHexDigit r) (h : 2 ^ 127 ≤ digitsVal 16 ds) :
    integerConstant (sg ++ '0' :: x :: (ds ++ r)) = some (x :: (ds ++ r), 0) := by
  obtain ⟨o, -, ho⟩ := hexInteger_pair hs hx hd hne hr
  unfold integerConstant
  rw [alt_right]
  · have h0 : Digits c!"0" := by unfold Digits; decide
    have hst : Stops isDigit (x :: (ds ++ r)) := by
      intro c t e
      cases e
      rcases hx with rfl | rfl <;> decide
    have hz : signed neg (digitsVal 10 c!"0") = 0 := by cases neg <;> decide
    have := decInteger_eq hs h0 (by decide) hst (by rw [hz]; omega) (by rw [hz]; omega)
    rw [hz] at this
    exact this
  · refine mapRes_fails ho ?_
    have hb := inI128_large h
    simp only [hb]
    rfl

/-! ### Type names -/

omit [Env] in
theorem builtins_names : ∀ x ∈ builtins, x.2 = builtinName x.1 := by decide

omit [Env] in
theorem builtins_all (b : Builtin) : (b, builtinName b) ∈ builtins := by cases b <;> decide

omit [Env] in
theorem string_alnum : ∀ c ∈ c!"string", c.isAlphanum = true := by decide

omit [Env] in
theorem builtinAlt_first : ∀ (l : List (Builtin × Str)) (i : Str), (∃ x ∈ l, x.2 <+: i) →
    ∃ x ∈ l, x.2 <+: i ∧ builtinAlt l i = some (i.drop x.2.length, .builtin x.1)
  | [], _, h => by obtain ⟨x, hx, -⟩ := h; cases hx
  | (b, n) :: l, i, h => by
    by_cases hn : n <+: i
    · refine ⟨_, List.mem_cons_self, hn, alt_left (value_eq (a := n) ?_)⟩
      unfold tag
      rw [if_pos (by rw [List.isPrefixOf_iff_prefix]; exact hn)]
    · obtain ⟨x, hx, hxi⟩ := h
      have hx' : x ∈ l := by
        rcases List.mem_cons.mp hx with rfl | hx
        · exact absurd hxi hn
        · exact hx
      obtain ⟨y, hy, h1, h2⟩ := builtinAlt_first l i ⟨x, hx', hxi⟩
      refine ⟨y, List.mem_cons_of_mem _ hy, h1, ?_⟩
      rw [builtinAlt, alt_right (value_none (tag_none hn)), h2]

/-- A type name that begins with the name of a builtin type is cut after it. -/
theorem type_cut {i r : Str} (hb : ∀ b, i ≠ builtinName b) (hs : i ≠ c!"string") (hp : ¬ Plain i)
    (hr : Stops Char.isAlphanum r) :
    ∃ n s ty, i = n ++ s ∧ s ≠ [] ∧ n ≠ [] ∧ (∀ q, ty ≠ .ident q) ∧ type_ (i ++ r) = some (s ++ r, ty) := by
  by_cases h : ∃ x ∈ builtins, x.2 <+: i ++ r
  · obtain ⟨x, hx, h1, h2⟩ := builtinAlt_first _ _ h
    obtain ⟨s, rfl⟩ := prefix_stop (builtins_alnum x hx) hr h1
    refine ⟨x.2, s, .builtin x.1, rfl, ?_, builtins_ne x hx, nofun, ?_⟩
    · rintro rfl
      exact hb x.1 (by rw [List.append_nil, builtins_names x hx])
    · rw [type_unfold, alt_left h2, List.append_assoc, List.drop_left]
  · have h0 : ∀ x ∈ builtins, ¬ x.2 <+: i ++ r := fun x hx hc => h ⟨x, hx, hc⟩
    have hst : c!"string" <+: i := by
      by_contra hc
      exact hp ⟨fun b hb => h0 _ (builtins_all b) (hb.trans (List.prefix_append _ _)), hc⟩
    obtain ⟨s, rfl⟩ := hst
    refine ⟨_, s, .string, rfl, ?_, by decide, nofun, ?_⟩
    · rintro rfl
      exact hs (List.append_nil _)
    · rw [type_unfold, alt_right (builtinAlt_none _ _ h0), List.append_assoc]
      exact alt_left (value_eq (tag_eq _ _))

theorem identRest_not {c : Char} (h : identRest c = true) (d : Char) (hd : d ∈ delims) : c ≠ d := by
  rintro rfl
  rw [delim_identRest hd] at h
  cases h

theorem identRest_solid {c : Char} (h : identRest c = true) (t : Str) : Solid (c :: t) := by
  refine solid_cons (identRest_not h '/' (by decide)) ?_
  cases e : isSpace c with
  | false => rfl
  | true =>
    rw [isSpace_iff] at e
    rcases e with rfl | rfl | rfl | rfl <;> exact absurd rfl (identRest_not h _ (by decide))

/-- A field is not read when letters follow what was read as its type. -/
theorem fieldDecl_cut {d : Comment} {dt : Str} (hd : DocText d dt) {i : Ident} (hi : IsIdent i) {w₁ w₂ : Str}
    (hw₁ : Trivia w₁) (hw₂ : Trivia w₂) {t : Str} (ht : Solid t) {ty : Ty} {c : Char} {s : Str}
    (h : type_ t = some (c :: s, ty)) (hc : identRest c = true) :
    fieldDecl (dt ++ (i ++ (w₁ ++ ':' :: (w₂ ++ t)))) = none := by
  have hsol := identRest_solid hc s
  have hcos := cos0_solid hsol
  refine map_none (terminated_none_right (a := (d, i, ty, none, none)) (pair_eq
    (docComment_eq hd (hi.tok _)) (pair_eq (terminated_eq (ident_eq hi (Follow.trivia hw₁ ':').delim.stops)
      (pair_eq (cos0_skip hw₁ (solid_punct _ _)) (pair_eq (char_eq _ _) (cos0_skip hw₂ ht))))
      (pair_eq h (pair_eq (opt_none (preceded_none_left (pair_none_right hcos (pair_none_left
        (char_none (identRest_not hc '=' (by decide))))))) (preceded_eq hcos (opt_none (delimited_none_left
          (terminated_none_left (char_none (identRest_not hc '(' (by decide)))))))))))
    (pair_none_right hcos (char_none (identRest_not hc ';' (by decide)))))

/-! ### Defaults -/

/-- A field with a default, otherwise well written, is read exactly when none of the words `nan`, `inf` and `infinity`
occurs after its equals sign, up to the end of the file. -/
theorem fieldDecl_default {f : Field} {dt : Str} (hd : DocText f.doc dt) (hi : IsIdent f.id) {w₁ w₂ w₃ w₄ w₅ w₆ : Str}
    (hw₁ : Trivia w₁) (hw₂ : Trivia w₂) {tt : Str} (hty : TyText f.ty tt) (hw₃ : Trivia w₃) (hw₄ : Trivia w₄)
    {v : DefaultValue} (hf : f.default = some v) {vt : Str} (hv : DefaultText v vt)
    (hn : NamesDefault (some v)) (hw₅ : Trivia w₅) {mt : Str} (hm : MetaText f.metadata mt) (hw₆ : Trivia w₆) (r : Str) :
    fieldDecl (dt ++ (f.id ++ (w₁ ++ ':' :: (w₂ ++ (tt ++ (w₃ ++ '=' :: (w₄ ++ (vt ++ (w₅ ++ (mt ++
      (w₆ ++ ';' :: r))))))))))) = some (r, f) ↔ NoSpecial (vt ++ (w₅ ++ (mt ++ (w₆ ++ ';' :: r)))) := by
  constructor
  · intro h
    by_contra hc
    rw [fieldDecl_swallow hd hi hw₁ hw₂ hty hw₃ hw₄ (default_tok hv _).solid (hasSpecial_iff.mpr hc)] at h
    cases h
  · intro hq
    have hx : Next c!"(;" (w₅ ++ (mt ++ (w₆ ++ ';' :: r))) :=
      (meta_next hm hw₆ (by decide) (by decide) r).skip hw₅
    obtain ⟨j, k, h1, h2, h3⟩ := metadata_eq (s := vt) hm hw₅ hw₆ (c := ';') (by decide) hq
    have hdef := defaultValue_eq hv hx.follow hn hq
    refine map_eq' (a := (f.doc, f.id, f.ty, some v, f.metadata)) (terminated_eq (j := k)
      (pair_eq (docComment_eq hd (hi.tok _)) (pair_eq (terminated_eq (ident_eq hi (Follow.trivia hw₁ ':').delim.stops)
        (pair_eq (cos0_skip hw₁ (solid_punct _ _)) (pair_eq (char_eq _ _) (cos0_skip hw₂ (ty_tok hty _).solid))))
        (pair_eq (type_eq hty (Follow.trivia hw₃ '=')) (pair_eq (opt_some (preceded_eq (pair_eq (cos0_skip hw₃
          (solid_punct _ _)) (pair_eq (char_eq _ _) (cos0_skip hw₄ (default_tok hv _).solid))) hdef))
          (preceded_eq h1 h2)))))
      (pair_eq h3 (char_eq _ _))) ?_
    cases f
    cases hf
    rfl

end Butte.Parse
