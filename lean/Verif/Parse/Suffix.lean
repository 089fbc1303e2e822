import Verif.Parse.Grammar
/-
Every rule consumes a prefix of its input, and the rules that are repeated consume at least one character. The
bounds on the number of rounds of the loops therefore never matter.
-/
namespace Butte.Parse

variable {α β γ : Type}

/-- What is left after the rule is a suffix of its input. -/
def Consumes (p : P α) : Prop := ∀ i r a, p i = some (r, a) → r <:+ i

/-- The rule consumes a nonempty prefix. -/
def Strict (p : P α) : Prop := ∀ i r a, p i = some (r, a) → ∃ c w, i = c :: (w ++ r)

theorem Strict.consumes {p : P α} (h : Strict p) : Consumes p := by
  intro i r a e
  obtain ⟨c, w, rfl⟩ := h i r a e
  exact ⟨c :: w, by simp⟩

theorem Strict.ne {p : P α} (h : Strict p) {i r : Str} {a : α} (e : p i = some (r, a)) : r.length < i.length := by
  obtain ⟨c, w, rfl⟩ := h i r a e
  simp; omega

theorem strict_iff {p : P α} : Strict p ↔ Consumes p ∧ ∀ i r a, p i = some (r, a) → r.length < i.length := by
  refine ⟨fun h => ⟨h.consumes, fun i r a e => h.ne e⟩, fun ⟨h, h'⟩ i r a e => ?_⟩
  obtain ⟨w, rfl⟩ := h i r a e
  have := h' _ _ _ e
  cases w with
  | nil => simp at this
  | cons c w => exact ⟨c, w, by simp⟩

theorem map_consumes {p : P α} {f : α → β} (h : Consumes p) : Consumes (map p f) := by
  intro i r a e
  unfold map at e
  split at e
  · cases e
  · rename_i r' a' he; cases e; exact h _ _ _ he

theorem map_strict {p : P α} {f : α → β} (h : Strict p) : Strict (map p f) := by
  intro i r a e
  unfold map at e
  split at e
  · cases e
  · rename_i r' a' he; cases e; exact h _ _ _ he

theorem mapRes_consumes {p : P α} {f : α → Option β} (h : Consumes p) : Consumes (mapRes p f) := by
  intro i r a e
  unfold mapRes at e
  split at e
  · cases e
  · rename_i r' a' he
    split at e
    · cases e
    · cases e; exact h _ _ _ he

theorem mapRes_strict {p : P α} {f : α → Option β} (h : Strict p) : Strict (mapRes p f) := by
  intro i r a e
  unfold mapRes at e
  split at e
  · cases e
  · rename_i r' a' he
    split at e
    · cases e
    · cases e; exact h _ _ _ he

theorem value_consumes {p : P α} {b : β} (h : Consumes p) : Consumes (value b p) := map_consumes h
theorem value_strict {p : P α} {b : β} (h : Strict p) : Strict (value b p) := map_strict h

theorem opt_consumes {p : P α} (h : Consumes p) : Consumes (opt p) := by
  intro i r a e
  unfold opt at e
  split at e
  · cases e; exact List.suffix_rfl
  · rename_i r' a' he; cases e; exact h _ _ _ he

theorem pnot_consumes {p : P α} : Consumes (pnot p) := by
  intro i r a e
  unfold pnot at e
  split at e
  · cases e; exact List.suffix_rfl
  · cases e

theorem recognize_consumes {p : P α} (h : Consumes p) : Consumes (recognize p) := by
  intro i r a e
  unfold recognize at e
  split at e
  · cases e
  · rename_i r' a' he; cases e; exact h _ _ _ he

theorem recognize_strict {p : P α} (h : Strict p) : Strict (recognize p) := by
  intro i r a e
  unfold recognize at e
  split at e
  · cases e
  · rename_i r' a' he; cases e; exact h _ _ _ he

theorem alt_consumes {p q : P α} (hp : Consumes p) (hq : Consumes q) : Consumes (alt p q) := by
  intro i r a e
  unfold alt at e
  split at e
  · exact hq _ _ _ e
  · rename_i x he; cases e; exact hp _ _ _ he

theorem alt_strict {p q : P α} (hp : Strict p) (hq : Strict q) : Strict (alt p q) := by
  intro i r a e
  unfold alt at e
  split at e
  · exact hq _ _ _ e
  · rename_i x he; cases e; exact hp _ _ _ he

theorem pair_some {p : P α} {q : P β} {i r : Str} {x : α × β} (e : pair p q i = some (r, x)) :
    ∃ j, p i = some (j, x.1) ∧ q j = some (r, x.2) := by
  unfold pair at e
  split at e
  · cases e
  · rename_i r' a' he
    split at e
    · cases e
    · rename_i r'' b' he'
      cases e
      exact ⟨_, he, he'⟩

theorem pair_consumes {p : P α} {q : P β} (hp : Consumes p) (hq : Consumes q) : Consumes (pair p q) := by
  intro i r a e
  obtain ⟨j, h1, h2⟩ := pair_some e
  exact (hq _ _ _ h2).trans (hp _ _ _ h1)

theorem pair_strict_left {p : P α} {q : P β} (hp : Strict p) (hq : Consumes q) : Strict (pair p q) := by
  intro i r a e
  obtain ⟨j, h1, h2⟩ := pair_some e
  obtain ⟨c, w, rfl⟩ := hp _ _ _ h1
  obtain ⟨v, rfl⟩ := hq _ _ _ h2
  exact ⟨c, w ++ v, by simp⟩

theorem pair_strict_right {p : P α} {q : P β} (hp : Consumes p) (hq : Strict q) : Strict (pair p q) := by
  intro i r a e
  obtain ⟨j, h1, h2⟩ := pair_some e
  obtain ⟨w, rfl⟩ := hp _ _ _ h1
  obtain ⟨c, v, rfl⟩ := hq _ _ _ h2
  cases w with
  | nil => exact ⟨c, v, by simp⟩
  | cons d w => exact ⟨d, w ++ c :: v, by simp⟩

theorem preceded_consumes {p : P α} {q : P β} (hp : Consumes p) (hq : Consumes q) : Consumes (preceded p q) :=
  map_consumes (pair_consumes hp hq)
theorem preceded_strict_left {p : P α} {q : P β} (hp : Strict p) (hq : Consumes q) : Strict (preceded p q) :=
  map_strict (pair_strict_left hp hq)
theorem preceded_strict_right {p : P α} {q : P β} (hp : Consumes p) (hq : Strict q) : Strict (preceded p q) :=
  map_strict (pair_strict_right hp hq)
theorem terminated_consumes {p : P α} {q : P β} (hp : Consumes p) (hq : Consumes q) : Consumes (terminated p q) :=
  map_consumes (pair_consumes hp hq)
theorem terminated_strict_left {p : P α} {q : P β} (hp : Strict p) (hq : Consumes q) : Strict (terminated p q) :=
  map_strict (pair_strict_left hp hq)
theorem terminated_strict_right {p : P α} {q : P β} (hp : Consumes p) (hq : Strict q) : Strict (terminated p q) :=
  map_strict (pair_strict_right hp hq)
theorem delimited_consumes {p : P α} {q : P β} {s : P γ} (hp : Consumes p) (hq : Consumes q) (hs : Consumes s) :
    Consumes (delimited p q s) := preceded_consumes hp (terminated_consumes hq hs)
theorem delimited_strict_left {p : P α} {q : P β} {s : P γ} (hp : Strict p) (hq : Consumes q) (hs : Consumes s) :
    Strict (delimited p q s) := preceded_strict_left hp (terminated_consumes hq hs)
theorem delimited_strict_mid {p : P α} {q : P β} {s : P γ} (hp : Consumes p) (hq : Strict q) (hs : Consumes s) :
    Strict (delimited p q s) := preceded_strict_right hp (terminated_strict_left hq hs)

theorem push_some {a : α} {o : Option (Str × List α)} {r : Str} {as : List α} (e : push a o = some (r, as)) :
    ∃ as', o = some (r, as') ∧ as = a :: as' := by
  cases o with
  | none => cases e
  | some x => cases e; exact ⟨_, rfl, rfl⟩

theorem manyGo_consumes {p : P α} (h : Consumes p) : ∀ n, Consumes (manyGo p n)
  | 0 => fun _ _ _ e => by cases e
  | n + 1 => fun i r a e => by
    rw [manyGo] at e
    split at e
    · cases e; exact List.suffix_rfl
    · rename_i r' a' he
      split at e
      · cases e
      · obtain ⟨as, he', -⟩ := push_some e
        exact (manyGo_consumes h n _ _ _ he').trans (h _ _ _ he)

theorem many0_consumes {p : P α} (h : Consumes p) : Consumes (many0 p) := fun i => manyGo_consumes h _ i

theorem many1_some {p : P α} {i r : Str} {as : List α} (e : many1 p i = some (r, as)) :
    ∃ j a as', p i = some (j, a) ∧ many0 p j = some (r, as') ∧ as = a :: as' := by
  unfold many1 at e
  split at e
  · cases e
  · rename_i r' a' he
    obtain ⟨as', he', rfl⟩ := push_some e
    exact ⟨_, _, _, he, he', rfl⟩

theorem many1_consumes {p : P α} (h : Consumes p) : Consumes (many1 p) := by
  intro i r a e
  obtain ⟨j, b, bs, h1, h2, -⟩ := many1_some e
  exact (many0_consumes h _ _ _ h2).trans (h _ _ _ h1)

theorem many1_strict {p : P α} (h : Strict p) : Strict (many1 p) := by
  intro i r a e
  obtain ⟨j, b, bs, h1, h2, -⟩ := many1_some e
  obtain ⟨c, w, rfl⟩ := h _ _ _ h1
  obtain ⟨v, rfl⟩ := many0_consumes h.consumes _ _ _ h2
  exact ⟨c, w ++ v, by simp⟩

theorem sepGo_consumes {s : P β} {p : P α} (hs : Consumes s) (h : Consumes p) : ∀ n, Consumes (sepGo s p n)
  | 0 => fun _ _ _ e => by cases e
  | n + 1 => fun i r a e => by
    rw [sepGo] at e
    split at e
    · cases e; exact List.suffix_rfl
    · rename_i r' b' he
      split at e
      · cases e
      · split at e
        · cases e; exact List.suffix_rfl
        · rename_i r'' a' he'
          split at e
          · cases e
          · obtain ⟨as, he3, -⟩ := push_some e
            exact (sepGo_consumes hs h n _ _ _ he3).trans ((h _ _ _ he').trans (hs _ _ _ he))

theorem sepList1_some {s : P β} {p : P α} {i r : Str} {as : List α} (e : sepList1 s p i = some (r, as)) :
    ∃ j a as', p i = some (j, a) ∧ j ≠ i ∧ sepGo s p (j.length + 1) j = some (r, as') ∧ as = a :: as' := by
  unfold sepList1 at e
  split at e
  · cases e
  · rename_i r' a' he
    split at e
    · cases e
    · rename_i hne
      obtain ⟨as', he', rfl⟩ := push_some e
      exact ⟨_, _, _, he, hne, he', rfl⟩

theorem sepList1_strict {s : P β} {p : P α} (hs : Consumes s) (h : Consumes p) : Strict (sepList1 s p) := by
  intro i r a e
  obtain ⟨j, b, bs, h1, hne, h2, -⟩ := sepList1_some e
  obtain ⟨w, rfl⟩ := h _ _ _ h1
  obtain ⟨v, rfl⟩ := sepGo_consumes hs h _ _ _ _ h2
  cases w with
  | nil => simp at hne
  | cons c w => exact ⟨c, w ++ v, by simp⟩

theorem sepList0_consumes {s : P β} {p : P α} (hs : Consumes s) (h : Consumes p) : Consumes (sepList0 s p) := by
  intro i r a e
  unfold sepList0 at e
  split at e
  · cases e; exact List.suffix_rfl
  · exact (sepList1_strict hs h).consumes _ _ _ e

theorem satisfy_strict {f : Char → Bool} : Strict (satisfy f) := by
  intro i r a e
  cases i with
  | nil => cases e
  | cons c cs =>
    rw [satisfy] at e
    split at e
    · cases e; exact ⟨_, [], rfl⟩
    · cases e

theorem tag_consumes {t : Str} : Consumes (tag t) := by
  intro i r a e
  unfold tag at e
  split at e
  · cases e; exact List.drop_suffix _ _
  · cases e

theorem tag_strict {t : Str} (ht : t ≠ []) : Strict (tag t) := by
  refine strict_iff.mpr ⟨tag_consumes, fun i r a e => ?_⟩
  unfold tag at e
  split at e
  · rename_i hp
    cases e
    have h1 := (List.isPrefixOf_iff_prefix.mp hp).length_le
    have : 0 < t.length := List.length_pos_iff.mpr ht
    rw [List.length_drop]; omega
  · cases e

theorem takeWhile_consumes {f : Char → Bool} : Consumes (takeWhile f) := by
  intro i r a e
  cases e
  exact List.dropWhile_suffix _

theorem takeWhile1_strict {f : Char → Bool} : Strict (takeWhile1 f) := by
  intro i r a e
  unfold takeWhile1 at e
  split at e
  · cases e
  · rename_i c cs he
    cases e
    refine ⟨c, cs, ?_⟩
    rw [← List.cons_append, ← he, List.takeWhile_append_dropWhile]

theorem take_consumes {n : Nat} : Consumes (take n) := by
  intro i r a e
  unfold take at e
  split at e
  · cases e; exact List.drop_suffix _ _
  · cases e

theorem notLineEnding_consumes : Consumes notLineEnding := by
  intro i r a e
  have hs : i.dropWhile (fun c => !isEol c) <:+ i := List.dropWhile_suffix _
  unfold notLineEnding at e
  split at e
  · rename_i he; cases e; rw [he] at hs; exact hs
  · cases e
  · cases e; exact hs

theorem lineEnding_strict : Strict lineEnding := by
  intro i r a e
  unfold lineEnding at e
  split at e
  · cases e; exact ⟨'\n', [], rfl⟩
  · cases e; exact ⟨'\r', ['\n'], rfl⟩
  · cases e

theorem escapedGo_suffix (f : Char → Bool) (ctl : Char) (g : Char → Bool) :
    ∀ (i r : Str), escapedGo f ctl g i = some r → r <:+ i
  | [], r, e => by cases e; exact List.suffix_rfl
  | [c], r, e => by
    rw [escapedGo] at e
    split at e
    · cases e; exact ⟨[c], rfl⟩
    · split at e
      · cases e
      · cases e; exact List.suffix_rfl
  | c :: d :: cs, r, e => by
    rw [escapedGo] at e
    split at e
    · exact (escapedGo_suffix f ctl g (d :: cs) r e).trans ⟨[c], rfl⟩
    · split at e
      · split at e
        · exact (escapedGo_suffix f ctl g cs r e).trans ⟨[c, d], rfl⟩
        · cases e
      · cases e; exact List.suffix_rfl

theorem escaped_consumes {f : Char → Bool} {ctl : Char} {g : Char → Bool} : Consumes (escaped f ctl g) := by
  intro i r a e
  unfold escaped at e
  split at e
  · cases e
  · rename_i he; cases e; exact escapedGo_suffix _ _ _ _ _ he

theorem reMatch_consumes {f : Str → Bool} : Consumes (reMatch f) := by
  intro i r a e
  unfold reMatch at e
  split at e
  · cases e; exact List.nil_suffix
  · cases e

theorem char_strict (c : Char) : Strict (char c) := satisfy_strict
theorem oneOf_strict (l : Str) : Strict (oneOf l) := satisfy_strict
theorem plusOrMinus_strict : Strict plusOrMinus := satisfy_strict
theorem digit1_strict : Strict digit1 := takeWhile1_strict
theorem digit0_consumes : Consumes digit0 := takeWhile_consumes
theorem hexDigit1_strict : Strict hexDigit1 := takeWhile1_strict
theorem hexDigit0_consumes : Consumes hexDigit0 := takeWhile_consumes

variable [Env]

theorem ident_strict : Strict ident :=
  recognize_strict (preceded_strict_left satisfy_strict takeWhile_consumes)

omit [Env] in
theorem comment_strict : Strict comment :=
  value_strict (pair_strict_left (tag_strict (by simp)) (pair_consumes pnot_consumes notLineEnding_consumes))

omit [Env] in
theorem commentOrSpace_strict : Strict commentOrSpace :=
  alt_strict comment_strict (value_strict takeWhile1_strict)

omit [Env] in
theorem cos0_consumes : Consumes cos0 := value_consumes (many0_consumes commentOrSpace_strict.consumes)

omit [Env] in
theorem cos1_strict : Strict cos1 := value_strict (many1_strict commentOrSpace_strict)

omit [Env] in
theorem docLine_strict : Strict (terminated (terminated rawDocComment lineEnding) cos0) :=
  terminated_strict_left (terminated_strict_right
    (preceded_consumes tag_consumes notLineEnding_consumes) lineEnding_strict) cos0_consumes

omit [Env] in
theorem docComment_consumes : Consumes docComment := many0_consumes docLine_strict.consumes

omit [Env] in
theorem sep_strict (c : Char) : Strict (delimited cos0 (char c) cos0) :=
  delimited_strict_mid cos0_consumes (char_strict c) cos0_consumes

theorem qualifiedIdent_strict : Strict qualifiedIdent :=
  sepList1_strict (delimited_consumes cos0_consumes tag_consumes cos0_consumes) ident_strict.consumes

omit [Env] in
theorem stringConstant_strict : Strict stringConstant :=
  map_strict (delimited_strict_left (char_strict _) (opt_consumes escaped_consumes) (char_strict _).consumes)

omit [Env] in
theorem sign_consumes : Consumes (opt plusOrMinus) := opt_consumes plusOrMinus_strict.consumes

omit [Env] in
theorem decIntegerConstant_strict : Strict decIntegerConstant :=
  mapRes_strict (recognize_strict (preceded_strict_right sign_consumes digit1_strict))

omit [Env] in
theorem hexIntegerConstant_strict : Strict hexIntegerConstant :=
  mapRes_strict (pair_strict_right sign_consumes (preceded_strict_left (char_strict _)
    (preceded_consumes (oneOf_strict _).consumes hexDigit1_strict.consumes)))

omit [Env] in
theorem integerConstant_strict : Strict integerConstant :=
  alt_strict hexIntegerConstant_strict decIntegerConstant_strict

theorem hasWord_nil (w : Str) : hasWord w [] = false := rfl

omit [Env] in
theorem reMatch_strict {f : Str → Bool} (h : f [] = false) : Strict (reMatch f) := by
  intro i r a e
  unfold reMatch at e
  split at e
  · rename_i hf
    cases e
    cases i with
    | nil => rw [h] at hf; cases hf
    | cons c cs => exact ⟨c, cs, by simp⟩
  · cases e

theorem nan_strict : Strict nan :=
  map_strict (terminated_strict_right sign_consumes (reMatch_strict rfl))

theorem infOrInfinity_strict : Strict infOrInfinity :=
  map_strict (terminated_strict_right sign_consumes (reMatch_strict rfl))

omit [Env] in
theorem hexFloatExponent_consumes : Consumes hexFloatExponent :=
  recognize_consumes (terminated_consumes (oneOf_strict _).consumes
    (terminated_consumes sign_consumes digit1_strict.consumes))

theorem hexFloatConstant_strict : Strict hexFloatConstant :=
  map_strict (pair_strict_left
    (terminated_strict_right sign_consumes (terminated_strict_left (char_strict _) (oneOf_strict _).consumes))
    (mapRes_consumes (recognize_consumes (alt_consumes
      (terminated_consumes (alt_consumes
        (terminated_consumes (terminated_consumes hexDigit1_strict.consumes (char_strict _).consumes)
          hexDigit0_consumes)
        (preceded_consumes (char_strict _).consumes hexDigit1_strict.consumes))
        (opt_consumes hexFloatExponent_consumes))
      (terminated_consumes hexDigit1_strict.consumes hexFloatExponent_consumes)))))

omit [Env] in
theorem decFloatExponent_consumes : Consumes decFloatExponent :=
  recognize_consumes (pair_consumes (oneOf_strict _).consumes
    (pair_consumes sign_consumes digit1_strict.consumes))

omit [Env] in
theorem decFloatConstant_strict : Strict decFloatConstant :=
  mapRes_strict (recognize_strict (preceded_strict_right sign_consumes (alt_strict
    (terminated_strict_left (alt_strict
      (terminated_strict_left digit1_strict (terminated_consumes (char_strict _).consumes digit0_consumes))
      (preceded_strict_left (char_strict _) digit1_strict.consumes))
      (opt_consumes decFloatExponent_consumes))
    (terminated_strict_left digit1_strict decFloatExponent_consumes))))

theorem floatConstant_strict : Strict floatConstant :=
  alt_strict (alt_strict nan_strict infOrInfinity_strict)
    (alt_strict hexFloatConstant_strict decFloatConstant_strict)

theorem boolWord_strict (b : Bool) (w : Str) (hw : w ≠ []) : Strict (boolWord b w) := by
  refine value_strict ?_
  intro i r a e
  simp only at e
  split at e
  · cases e
  · exact tag_strict hw _ _ _ e

theorem booleanConstant_strict : Strict booleanConstant :=
  alt_strict (boolWord_strict _ _ (by simp)) (boolWord_strict _ _ (by simp))

theorem scalar_strict : Strict scalar :=
  alt_strict (map_strict floatConstant_strict)
    (alt_strict (map_strict integerConstant_strict) (map_strict booleanConstant_strict))

theorem single_strict : Strict single := alt_strict (map_strict scalar_strict) (map_strict stringConstant_strict)

theorem defaultValue_strict : Strict defaultValue :=
  alt_strict (map_strict scalar_strict) (map_strict ident_strict)

omit [Env] in
theorem builtinAlt_strict : ∀ l : List (Ast.Builtin × Str), (∀ x ∈ l, x.2 ≠ []) → Strict (builtinAlt l)
  | [], _ => fun _ _ _ e => by cases e
  | (b, n) :: l, h => alt_strict (value_strict (tag_strict (h (b, n) List.mem_cons_self)))
      (builtinAlt_strict l fun x hx => h x (List.mem_cons_of_mem _ hx))

omit [Env] in
theorem builtins_ne : ∀ x ∈ builtins, x.2 ≠ [] := by decide

theorem typeGo_strict : ∀ n, Strict (typeGo n)
  | 0 => fun _ _ _ e => by cases e
  | n + 1 => alt_strict (builtinAlt_strict _ builtins_ne)
      (alt_strict (value_strict (tag_strict (by simp)))
        (alt_strict (map_strict (delimited_strict_left (char_strict _) (typeGo_strict n).consumes
          (char_strict _).consumes)) (map_strict qualifiedIdent_strict)))

theorem type_strict : Strict type_ := fun i => typeGo_strict _ i

theorem metaItem_strict :
    Strict (pair ident (opt (preceded cos0 (preceded (char ':') (preceded cos0 single))))) :=
  pair_strict_left ident_strict (opt_consumes (preceded_consumes cos0_consumes
    (preceded_consumes (char_strict _).consumes (preceded_consumes cos0_consumes single_strict.consumes))))

theorem rawMetadata_strict : Strict rawMetadata :=
  delimited_strict_left (terminated_strict_left (char_strict _) cos0_consumes)
    (sepList0_consumes (sep_strict _).consumes metaItem_strict.consumes)
    (preceded_consumes cos0_consumes (char_strict _).consumes)

theorem metadata_consumes : Consumes metadata := opt_consumes rawMetadata_strict.consumes

theorem objectOf_strict {v : P Ast.Value} (hv : Consumes v) : Strict (objectOf v) :=
  pair_strict_right docComment_consumes (delimited_strict_left (terminated_strict_left (char_strict _) cos0_consumes)
    (sepList0_consumes (sep_strict _).consumes (pair_consumes ident_strict.consumes
      (preceded_consumes (sep_strict _).consumes hv)))
    (preceded_consumes cos0_consumes (char_strict _).consumes))

omit [Env] in
theorem valueListOf_strict {v : P Ast.Value} (hv : Consumes v) : Strict (valueListOf v) :=
  delimited_strict_left (terminated_strict_left (char_strict _) cos0_consumes)
    (sepList0_consumes (sep_strict _).consumes hv)
    (preceded_consumes cos0_consumes (char_strict _).consumes)

theorem valueGo_strict : ∀ n, Strict (valueGo n)
  | 0 => fun _ _ _ e => by cases e
  | n + 1 => alt_strict (map_strict single_strict)
      (alt_strict (map_strict (objectOf_strict (valueGo_strict n).consumes))
        (map_strict (valueListOf_strict (valueGo_strict n).consumes)))

theorem value__strict : Strict value_ := fun i => valueGo_strict _ i

theorem object_strict : Strict object := objectOf_strict value__strict.consumes

theorem fieldDecl_strict : Strict fieldDecl :=
  map_strict (terminated_strict_right
    (pair_consumes docComment_consumes (pair_consumes (terminated_consumes ident_strict.consumes
      (pair_consumes cos0_consumes (pair_consumes (char_strict _).consumes cos0_consumes)))
      (pair_consumes type_strict.consumes (pair_consumes
        (opt_consumes (preceded_consumes (pair_consumes cos0_consumes
          (pair_consumes (char_strict _).consumes cos0_consumes)) defaultValue_strict.consumes))
        (preceded_consumes cos0_consumes metadata_consumes)))))
    (pair_strict_right cos0_consumes (char_strict _)))

omit [Env] in
/-- Surrounding white space does not change what a rule guarantees. -/
theorem spaced_strict {p : P α} (h : Strict p) : Strict (delimited cos0 p cos0) :=
  delimited_strict_mid cos0_consumes h cos0_consumes

theorem productTypeBody_strict : Strict productTypeBody :=
  pair_strict_left (delimited_strict_left cos1_strict ident_strict.consumes cos0_consumes)
    (pair_consumes (terminated_consumes metadata_consumes cos0_consumes)
      (delimited_consumes (preceded_consumes (char_strict _).consumes cos0_consumes)
        (many0_consumes (spaced_strict fieldDecl_strict).consumes)
        (terminated_consumes cos0_consumes (char_strict _).consumes)))

theorem productDecl_strict (kw : Str) : Strict (productDecl kw) :=
  map_strict (pair_strict_right docComment_consumes (preceded_strict_right tag_consumes productTypeBody_strict))

theorem enumvalDecl_strict : Strict enumvalDecl :=
  map_strict (pair_strict_right docComment_consumes (pair_strict_left ident_strict
    (opt_consumes (preceded_consumes cos0_consumes (preceded_consumes (char_strict _).consumes
      (preceded_consumes cos0_consumes integerConstant_strict.consumes))))))

theorem enumBody_strict : Strict enumBody :=
  delimited_strict_left (sep_strict _)
    (terminated_consumes (sepList1_strict (sep_strict _).consumes enumvalDecl_strict.consumes).consumes
      (opt_consumes (pair_consumes cos0_consumes (pair_consumes (char_strict _).consumes cos0_consumes))))
    (preceded_consumes cos0_consumes (char_strict _).consumes)

theorem named_consumes (kw : Str) : Consumes (preceded (tag kw) (delimited cos1 ident cos0)) :=
  preceded_consumes tag_consumes (delimited_consumes cos1_strict.consumes ident_strict.consumes cos0_consumes)

theorem enumDecl_strict : Strict enumDecl :=
  map_strict (pair_strict_right docComment_consumes (pair_strict_right (named_consumes _)
    (pair_strict_right
      (preceded_consumes (char_strict _).consumes (preceded_consumes cos0_consumes type_strict.consumes))
      (pair_strict_right metadata_consumes enumBody_strict))))

theorem unionDecl_strict : Strict unionDecl :=
  map_strict (pair_strict_right docComment_consumes (pair_strict_right (named_consumes _)
    (pair_strict_right metadata_consumes enumBody_strict)))

theorem rpcMethod_strict : Strict rpcMethod :=
  map_strict (pair_strict_right docComment_consumes (pair_strict_left
    (terminated_strict_left ident_strict cos0_consumes)
    (pair_consumes
      (delimited_consumes (char_strict _).consumes
        (delimited_consumes cos0_consumes qualifiedIdent_strict.consumes cos0_consumes) (char_strict _).consumes)
      (preceded_consumes (sep_strict _).consumes (terminated_consumes
        (pair_consumes qualifiedIdent_strict.consumes (preceded_consumes cos0_consumes metadata_consumes))
        (terminated_consumes cos0_consumes (char_strict _).consumes))))))

theorem rpcDecl_strict : Strict rpcDecl :=
  map_strict (pair_strict_right docComment_consumes (pair_strict_left
    (preceded_strict_left (terminated_strict_left (tag_strict (by simp)) cos1_strict.consumes)
      (terminated_consumes ident_strict.consumes cos0_consumes))
    (delimited_consumes (char_strict _).consumes (many1_consumes (spaced_strict rpcMethod_strict).consumes)
      (char_strict _).consumes)))

omit [Env] in
theorem keywordDecl_strict {kw : Str} (hk : kw ≠ []) {p : P α} (h : Consumes p) : Strict (keywordDecl kw p) :=
  pair_strict_right docComment_consumes (delimited_strict_left (tag_strict hk) h (char_strict _).consumes)

theorem namespaceDecl_strict : Strict namespaceDecl :=
  keywordDecl_strict (by simp)
    (delimited_consumes cos1_strict.consumes qualifiedIdent_strict.consumes cos0_consumes)

theorem attributeDecl_strict : Strict attributeDecl :=
  keywordDecl_strict (by simp) (delimited_consumes cos1_strict.consumes
    (alt_strict ident_strict stringConstant_strict).consumes cos0_consumes)

theorem rootDecl_strict : Strict rootDecl :=
  keywordDecl_strict (by simp) (delimited_consumes cos1_strict.consumes ident_strict.consumes cos0_consumes)

omit [Env] in
theorem fileExtensionDecl_strict : Strict fileExtensionDecl :=
  keywordDecl_strict (by simp) (delimited_consumes cos0_consumes stringConstant_strict.consumes cos0_consumes)

omit [Env] in
theorem fileIdentifierDecl_strict : Strict fileIdentifierDecl :=
  mapRes_strict (keywordDecl_strict (by simp) (delimited_consumes cos0_consumes
    (delimited_consumes (char_strict _).consumes take_consumes (char_strict _).consumes) cos0_consumes))

theorem includeDecl_strict : Strict includeDecl :=
  mapRes_strict (keywordDecl_strict (by simp)
    (delimited_consumes cos1_strict.consumes stringConstant_strict.consumes cos0_consumes))

theorem element_strict : Strict element :=
  alt_strict (map_strict namespaceDecl_strict)
  (alt_strict (map_strict (productDecl_strict _))
  (alt_strict (map_strict (productDecl_strict _))
  (alt_strict (map_strict enumDecl_strict)
  (alt_strict (map_strict unionDecl_strict)
  (alt_strict (map_strict rootDecl_strict)
  (alt_strict (map_strict fileExtensionDecl_strict)
  (alt_strict (map_strict fileIdentifierDecl_strict)
  (alt_strict (map_strict attributeDecl_strict)
  (alt_strict (map_strict rpcDecl_strict)
    (map_strict object_strict))))))))))

theorem schemaDecl_consumes : Consumes schemaDecl :=
  map_consumes (pair_consumes (many0_consumes (spaced_strict includeDecl_strict).consumes)
    (many0_consumes (spaced_strict element_strict).consumes))

/-! ### The loops end -/

omit [Env] in
theorem manyGo_enough {p : P α} (h : Consumes p) : ∀ (n m : Nat) (i : Str), i.length < n → i.length < m →
    manyGo p n i = manyGo p m i
  | 0, _, _, hn, _ => by omega
  | _, 0, _, _, hm => by omega
  | n + 1, m + 1, i, hn, hm => by
    rw [manyGo, manyGo]
    cases he : p i with
    | none => rfl
    | some x =>
      obtain ⟨r, a⟩ := x
      simp only
      split
      · rfl
      · rename_i hne
        have hs := h _ _ _ he
        have hl : r.length < i.length := Nat.lt_of_le_of_ne hs.length_le
          (fun hc => hne (hs.eq_of_length hc))
        rw [manyGo_enough h n m r (by omega) (by omega)]

omit [Env] in
/-- `many0` without the bound: the loop as nom runs it. -/
theorem many0_eq {p : P α} (h : Consumes p) (i : Str) :
    many0 p i = match p i with
      | none => some (i, [])
      | some (r, a) =>
        if r = i then none
        else push a (many0 p r) := by
  unfold many0
  rw [manyGo]
  cases he : p i with
  | none => rfl
  | some x =>
    obtain ⟨r, a⟩ := x
    simp only
    split
    · rfl
    · rename_i hne
      have hs := h _ _ _ he
      have hl : r.length < i.length := Nat.lt_of_le_of_ne hs.length_le (fun hc => hne (hs.eq_of_length hc))
      rw [manyGo_enough h i.length (r.length + 1) r (by omega) (by omega)]

omit [Env] in
/-- A repeated rule that always consumes something never makes `many0` fail. -/
theorem many0_total {p : P α} (h : Strict p) : ∀ i : Str, ∃ r as, many0 p i = some (r, as) ∧ p r = none := by
  have key : ∀ (n : Nat) (i : Str), i.length < n → ∃ r as, many0 p i = some (r, as) ∧ p r = none := by
    intro n
    induction n with
    | zero => intro i hi; omega
    | succ n ih =>
      intro i hi
      rw [many0_eq h.consumes]
      cases he : p i with
      | none => exact ⟨i, [], rfl, he⟩
      | some x =>
        obtain ⟨r, a⟩ := x
        have hl := h.ne he
        obtain ⟨r', as, h1, h2⟩ := ih r (by omega)
        refine ⟨r', a :: as, ?_, h2⟩
        have : r ≠ i := by intro hc; subst hc; omega
        simp only [this, if_false, h1, push]
  exact fun i => key _ i (Nat.lt_succ_self _)

omit [Env] in
theorem sepGo_enough {s : P β} {p : P α} (hs : Consumes s) (h : Consumes p) :
    ∀ (n m : Nat) (i : Str), i.length < n → i.length < m → sepGo s p n i = sepGo s p m i
  | 0, _, _, hn, _ => by omega
  | _, 0, _, _, hm => by omega
  | n + 1, m + 1, i, hn, hm => by
    rw [sepGo, sepGo]
    cases he : s i with
    | none => rfl
    | some x =>
      obtain ⟨r, b⟩ := x
      simp only
      split
      · rfl
      · rename_i hne
        cases he' : p r with
        | none => rfl
        | some y =>
          obtain ⟨r', a⟩ := y
          simp only
          split
          · rfl
          · rename_i hne'
            have h1 := hs _ _ _ he
            have h2 := (h _ _ _ he').trans h1
            have hl : r'.length < i.length := Nat.lt_of_le_of_ne h2.length_le (fun hc => hne' (h2.eq_of_length hc))
            rw [sepGo_enough hs h n m r' (by omega) (by omega)]

/-- The loop of `separated_list` without the bound. -/
def sepRest (s : P β) (p : P α) : P (List α) := fun i => sepGo s p (i.length + 1) i

omit [Env] in
theorem sepRest_eq {s : P β} {p : P α} (hs : Consumes s) (h : Consumes p) (i : Str) :
    sepRest s p i = match s i with
      | none => some (i, [])
      | some (r, _) =>
        if r = i then none
        else match p r with
          | none => some (i, [])
          | some (r', a) =>
            if r' = i then none
            else push a (sepRest s p r') := by
  unfold sepRest
  rw [sepGo]
  cases he : s i with
  | none => rfl
  | some x =>
    obtain ⟨r, b⟩ := x
    simp only
    split
    · rfl
    · rename_i hne
      cases he' : p r with
      | none => rfl
      | some y =>
        obtain ⟨r', a⟩ := y
        simp only
        split
        · rfl
        · rename_i hne'
          have h1 := hs _ _ _ he
          have h2 := (h _ _ _ he').trans h1
          have hl : r'.length < i.length := Nat.lt_of_le_of_ne h2.length_le (fun hc => hne' (h2.eq_of_length hc))
          rw [sepGo_enough hs h i.length (r'.length + 1) r' (by omega) (by omega)]

end Butte.Parse
