import Verif.Parse.Numbers
import Verif.Parse.Fuel
/-
Every way of writing a schema is read back as that schema, provided the text does not contain the words `nan`, `inf`
and `infinity`.
-/
namespace Butte.Parse

open Ast

variable [Env]

/-! ### What follows -/

omit [Env] in
/-- The next thing after white space and comments is one of the given punctuation marks. -/
def Next (l r : Str) : Prop := ∃ w c t, Trivia w ∧ c ∈ l ∧ r = w ++ c :: t

omit [Env] in
theorem Next.follow {l r : Str} (h : Next l r) (hl : ∀ c ∈ l, c ∈ c!"=();{}[],:" := by decide) : Follow r := by
  obtain ⟨w, c, t, hw, hc, rfl⟩ := h
  exact ⟨w, c, t, hw, hl c hc, rfl⟩

omit [Env] in
theorem punct_solid : ∀ c ∈ c!"=();{}[],:", c ≠ '/' ∧ isSpace c = false := by decide

omit [Env] in
theorem Follow.cos0 {r : Str} (h : Follow r) : ∃ c t, c ∈ c!"=();{}[],:" ∧ cos0 r = some (c :: t, ()) := by
  obtain ⟨w, c, t, hw, hc, rfl⟩ := h
  exact ⟨c, t, hc, cos0_skip hw (solid_cons (punct_solid c hc).1 (punct_solid c hc).2)⟩

omit [Env] in
theorem Next.cos0 {l r : Str} (h : Next l r) (hl : ∀ c ∈ l, c ∈ c!"=();{}[],:" := by decide) :
    ∃ c t, c ∈ l ∧ cos0 r = some (c :: t, ()) := by
  obtain ⟨w, c, t, hw, hc, rfl⟩ := h
  have := punct_solid c (hl c hc)
  exact ⟨c, t, hc, cos0_skip hw (solid_cons this.1 this.2)⟩

omit [Env] in
theorem Next.mk (l : Str) {w : Str} (hw : Trivia w) (c : Char) (t : Str) (hc : c ∈ l := by decide) :
    Next l (w ++ c :: t) := ⟨w, c, t, hw, hc, rfl⟩

omit [Env] in
theorem Next.skip {l w r : Str} (hw : Trivia w) (h : Next l r) : Next l (w ++ r) := by
  obtain ⟨v, c, t, hv, hc, rfl⟩ := h
  exact ⟨w ++ v, c, t, trivia_append hw hv, hc, by simp⟩

omit [Env] in
/-- The words of the language consist of letters and digits, so they do not reach beyond an identifier. -/
theorem prefix_stop {n i r : Str} (hn : ∀ c ∈ n, c.isAlphanum = true) (hr : Stops Char.isAlphanum r)
    (h : n <+: i ++ r) : n <+: i := by
  induction n generalizing i with
  | nil => exact List.nil_prefix
  | cons c n ih =>
    cases i with
    | nil =>
      obtain ⟨s, hs⟩ := h
      have := hr c (n ++ s) (by rw [← List.cons_append, hs]; rfl)
      rw [hn c List.mem_cons_self] at this
      cases this
    | cons d i =>
      rw [List.cons_append, List.cons_prefix_cons] at h
      rw [List.cons_prefix_cons]
      exact ⟨h.1, ih (fun c hc => hn c (List.mem_cons_of_mem _ hc)) h.2⟩

omit [Env] in
theorem Delim.stopsAlnum {r : Str} (h : Delim r) : Stops Char.isAlphanum r := by
  obtain ⟨c, t, rfl, hc⟩ := h
  exact stops_cons (delims_ascii c hc).2.2.2.2.2.2.2.2.2.2.2.2

/-! ### Dotted names -/

theorem dot_rest : identRest '.' = false := by
  unfold identRest
  rw [Env.alphabetic_ascii _ (by decide), Env.numeric_ascii _ (by decide)]
  decide

theorem word_punct {c : Char} (h : c ∈ c!"=();{}[],:." := by decide) : Env.word c = false := by
  have : c.toNat < 128 ∧ (c.isAlphanum || c == '_') = false := by revert h; revert c; decide
  rw [Env.word_ascii _ this.1, this.2]

theorem stops_dot {w : Str} (hw : Trivia w) (t : Str) : Stops identRest (w ++ '.' :: t) := by
  rcases trivia_head (t := '.' :: t) hw with rfl | ⟨d, s, e, hd⟩
  · exact stops_cons dot_rest
  · rw [e]
    exact stops_cons (delim_identRest (by rcases hd with rfl | rfl | rfl | rfl | rfl <;> decide))

omit [Env] in
theorem stopsAlnum_dot {w : Str} (hw : Trivia w) (t : Str) : Stops Char.isAlphanum (w ++ '.' :: t) := by
  rcases trivia_head (t := '.' :: t) hw with rfl | ⟨d, s, e, hd⟩
  · exact stops_cons (by decide)
  · rw [e]
    exact stops_cons (by rcases hd with rfl | rfl | rfl | rfl | rfl <;> decide)

theorem qualifiedIdent_eq {q : QIdent} {t r : Str} (h : QIdentText q t) (hr : Follow r) :
    qualifiedIdent (t ++ r) = some (r, q) := by
  refine sepRest_text (Q := fun _ => True) (K := Stops identRest)
    (delimited_strict_mid cos0_consumes (tag_strict (by simp)) cos0_consumes) ident_strict
    (word_punct (c := '.')) (fun _ _ _ _ => trivial) ?_ (fun w t hw => stops_dot hw t) ?_ ?_ h hr.delim.stops ?_
    trivial
  · intro w₁ w₂ t h₁ h₂ ht
    exact ⟨c!".", delimited_eq (cos0_skip h₁ (solid_cons (by decide) (by decide))) (tag_eq c!"." _)
      (cos0_skip h₂ ht)⟩
  · rintro a t r ⟨ha, rfl⟩ hk -
    exact ident_eq ha hk
  · rintro a t r ⟨ha, rfl⟩
    exact (ha.tok r).solid
  · left
    obtain ⟨c, t, hc, e⟩ := hr.cos0
    refine delimited_none_mid e (tag_none ?_)
    rintro ⟨s, hs⟩
    cases hs
    revert hc
    decide

theorem qident_tok {q : QIdent} {t : Str} (h : QIdentText q t) (r : Str) : Tok (t ++ r) := by
  cases h with
  | one ha => obtain ⟨ha, rfl⟩ := ha; exact ha.tok r
  | cons ha => obtain ⟨ha, rfl⟩ := ha; rw [List.append_assoc]; exact ha.tok _

/-! ### Types -/

omit [Env] in
theorem builtinAlt_skip : ∀ (l₁ l₂ : List (Builtin × Str)) (i : Str), (∀ x ∈ l₁, ¬ x.2 <+: i) →
    builtinAlt (l₁ ++ l₂) i = builtinAlt l₂ i
  | [], _, _, _ => rfl
  | (b, n) :: l₁, l₂, i, h => by
    rw [List.cons_append, builtinAlt, alt_right (value_none (tag_none (h _ List.mem_cons_self)))]
    exact builtinAlt_skip l₁ l₂ i (fun x hx => h x (List.mem_cons_of_mem _ hx))

omit [Env] in
theorem builtinAlt_none (l : List (Builtin × Str)) (i : Str) (h : ∀ x ∈ l, ¬ x.2 <+: i) : builtinAlt l i = none := by
  have := builtinAlt_skip l [] i h
  rw [List.append_nil] at this
  rw [this]
  rfl

omit [Env] in
theorem builtins_alnum : ∀ x ∈ builtins, ∀ c ∈ x.2, c.isAlphanum = true := by decide

omit [Env] in
theorem builtins_name : ∀ x ∈ builtins, x.2 = builtinName x.1 := by decide

omit [Env] in
theorem string_first : ∀ x ∈ builtins, ¬ x.2 <+: c!"string" := by decide

omit [Env] in
/-- No name of the list before `b` begins the name of `b`. -/
theorem builtins_order (b : Builtin) : ∃ k, builtins = builtins.take k ++ (b, builtinName b) :: builtins.drop (k + 1) ∧
    ∀ x ∈ builtins.take k, ¬ x.2 <+: builtinName b := by
  cases b
  · exact ⟨0, rfl, by decide⟩
  · exact ⟨1, rfl, by decide⟩
  · exact ⟨2, rfl, by decide⟩
  · exact ⟨3, rfl, by decide⟩
  · exact ⟨4, rfl, by decide⟩
  · exact ⟨18, rfl, by decide⟩
  · exact ⟨19, rfl, by decide⟩
  · exact ⟨20, rfl, by decide⟩
  · exact ⟨5, rfl, by decide⟩
  · exact ⟨6, rfl, by decide⟩
  · exact ⟨7, rfl, by decide⟩
  · exact ⟨8, rfl, by decide⟩
  · exact ⟨9, rfl, by decide⟩
  · exact ⟨10, rfl, by decide⟩
  · exact ⟨11, rfl, by decide⟩
  · exact ⟨12, rfl, by decide⟩
  · exact ⟨13, rfl, by decide⟩
  · exact ⟨14, rfl, by decide⟩
  · exact ⟨15, rfl, by decide⟩
  · exact ⟨16, rfl, by decide⟩
  · exact ⟨17, rfl, by decide⟩

omit [Env] in
theorem builtinAlt_eq (b : Builtin) {r : Str} (hr : Stops Char.isAlphanum r) :
    builtinAlt builtins (builtinName b ++ r) = some (r, .builtin b) := by
  obtain ⟨k, e, h⟩ := builtins_order b
  rw [e, builtinAlt_skip]
  · exact alt_left (value_eq (tag_eq _ _))
  · intro x hx hc
    exact h x hx (prefix_stop (builtins_alnum x (List.mem_of_mem_take hx)) hr hc)

theorem typeGo_eq {ty : Ty} {t : Str} (h : TyText ty t) : ∀ {n : Nat} {r : Str}, t.length < n → Follow r →
    typeGo n (t ++ r) = some (r, ty) := by
  induction h with
  | builtin b =>
    intro n r hn hr
    cases n with
    | zero => omega
    | succ n => exact alt_left (builtinAlt_eq b hr.delim.stopsAlnum)
  | string =>
    intro n r hn hr
    cases n with
    | zero => omega
    | succ n =>
      rw [typeGo, alt_right]
      · exact alt_left (value_eq (tag_eq _ _))
      · refine builtinAlt_none _ _ (fun x hx hc => ?_)
        exact string_first x hx (prefix_stop (builtins_alnum x hx) hr.delim.stopsAlnum hc)
  | @array ty t h ih =>
    intro n r hn hr
    cases n with
    | zero => omega
    | succ n =>
      have e : '[' :: (t ++ [']']) ++ r = '[' :: (t ++ ']' :: r) := by simp
      rw [e, typeGo, alt_right, alt_right]
      · refine alt_left (map_eq (delimited_eq (char_eq _ _) (ih ?_ (.mk ']' _)) (char_eq _ _)))
        simp at hn
        omega
      · exact value_none (tag_none (by rintro ⟨s, hs⟩; cases hs))
      · refine builtinAlt_none _ _ (fun x hx hc => ?_)
        have h1 := builtins_alnum x hx
        have h2 := builtins_ne x hx
        obtain ⟨s, hs⟩ := hc
        cases e : x.2 with
        | nil => exact h2 e
        | cons c l =>
          rw [e] at hs h1
          have hc : c = '[' := (List.cons.inj hs).1
          subst hc
          exact absurd (h1 _ List.mem_cons_self) (by decide)
  | @ident i q t hp hq =>
    intro n r hn hr
    cases n with
    | zero => omega
    | succ n =>
      have key : ∀ nm : Str, (∀ c ∈ nm, c.isAlphanum = true) → nm <+: t ++ r → nm <+: i := by
        intro nm hnm hc
        cases hq with
        | one ha =>
          obtain ⟨-, rfl⟩ := ha
          exact prefix_stop hnm hr.delim.stopsAlnum hc
        | @cons _ _ t w₁ w₂ ts ha hw₁ hw₂ hts =>
          obtain ⟨-, rfl⟩ := ha
          refine prefix_stop (r := w₁ ++ '.' :: (w₂ ++ (ts ++ r))) hnm (stopsAlnum_dot hw₁ _) ?_
          simpa using hc
      rw [typeGo, alt_right, alt_right, alt_right]
      · exact map_eq (qualifiedIdent_eq hq hr)
      · refine map_none (delimited_none_left ?_)
        obtain ⟨c, s, e⟩ : ∃ c s, t ++ r = c :: s := by
          obtain ⟨c, s, e, -⟩ := qident_tok hq r
          exact ⟨c, s, e⟩
        rw [e]
        refine char_none ?_
        have hi : IsIdent i := by cases hq with
          | one ha => exact ha.1
          | cons ha => exact ha.1
        obtain ⟨d, ds, rfl, h1, -⟩ := hi.cases
        have : d = c := by
          cases hq with
          | one ha => obtain ⟨-, rfl⟩ := ha; cases e; rfl
          | cons ha => obtain ⟨-, rfl⟩ := ha; cases e; rfl
        subst this
        exact identStart_ne h1 '['
      · refine value_none (tag_none (fun hc => hp.2 (key _ ?_ hc)))
        decide
      · refine builtinAlt_none _ _ (fun x hx hc => ?_)
        have := key _ (builtins_alnum x hx) hc
        rw [builtins_name x hx] at this
        exact hp.1 x.1 this

theorem type_eq {ty : Ty} {t r : Str} (h : TyText ty t) (hr : Follow r) : type_ (t ++ r) = some (r, ty) :=
  typeGo_eq h (by simp; omega) hr

theorem ty_tok {ty : Ty} {t : Str} (h : TyText ty t) (r : Str) : Tok (t ++ r) := by
  cases h with
  | builtin b => cases b <;> exact tok_cons _ _
  | string => exact tok_cons _ _
  | array => exact tok_cons _ _
  | ident hp hq => exact qident_tok hq r

/-! ### Defaults and metadata -/

theorem defaultValue_eq {v : DefaultValue} {t r : Str} (h : DefaultText v t) (hr : Follow r)
    (hv : NamesDefault (some v)) (hq : NoSpecial (t ++ r)) : defaultValue (t ++ r) = some (r, v) := by
  unfold defaultValue
  cases h with
  | scalar h => exact alt_left (map_eq (scalar_eq h hr.delim hq))
  | ident hi _ _ =>
    obtain ⟨ht, hf⟩ := hv
    rw [alt_right]
    · exact map_eq (ident_eq hi hr.delim.stops)
    · refine map_none ?_
      have ht' := fun h => ht (prefix_stop (n := c!"true") (by decide) hr.delim.stopsAlnum h)
      have hf' := fun h => hf (prefix_stop (n := c!"false") (by decide) hr.delim.stopsAlnum h)
      obtain ⟨c, cs, rfl, h1, h2⟩ := hi.cases
      exact scalar_none (identStart_ne h1 _) (identStart_ne h1 _) (identStart_ne h1 _) (identStart_not h1).2.2
        ht' hf' hq

omit [Env] in
theorem sign_tok {neg : Bool} {sg t : Str} (hs : Sign neg sg) (ht : Tok t) : Tok (sg ++ t) := by
  cases hs with
  | none => exact ht
  | plus => exact tok_cons _ _
  | minus => exact tok_cons _ _

omit [Env] in
theorem digits_tok {ds r : Str} (h : Digits ds) (hne : ds ≠ []) : Tok (ds ++ r) := by
  cases ds with
  | nil => exact absurd rfl hne
  | cons c ds =>
    have hc := h c List.mem_cons_self
    refine ⟨c, ds ++ r, rfl, digit_ne hc _, ?_⟩
    cases hs : isSpace c with
    | false => rfl
    | true =>
      rw [isSpace_iff] at hs
      rcases hs with e | e | e | e <;> exact absurd e (digit_ne hc _)

omit [Env] in
theorem int_tok {i : Int} {t : Str} (h : IntText i t) (r : Str) : Tok (t ++ r) := by
  cases h with
  | dec hs hd hne => rw [List.append_assoc]; exact sign_tok hs (digits_tok hd hne)
  | hex hs => rw [List.append_assoc]; exact sign_tok hs (tok_cons _ _)

omit [Env] in
theorem point_tok {ip : Str} (h : Digits ip) (s : Str) : Tok (ip ++ '.' :: s) := by
  cases ip with
  | nil => exact tok_cons _ _
  | cons c ip => exact digits_tok h (by simp)

omit [Env] in
theorem float_tok {b : Fin (2 ^ 64)} {t : Str} (h : FloatText b t) (r : Str) : Tok (t ++ r) := by
  cases h with
  | point hs hi => rw [List.append_assoc, List.append_assoc]; exact sign_tok hs (point_tok hi _)
  | pointExp hs hi => rw [List.append_assoc, List.append_assoc]; exact sign_tok hs (point_tok hi _)
  | exp hs hi hne => rw [List.append_assoc, List.append_assoc]; exact sign_tok hs (digits_tok hi hne)

omit [Env] in
theorem scalar_tok {s : Scalar} {t : Str} (h : ScalarText s t) (r : Str) : Tok (t ++ r) := by
  cases h with
  | integer h => exact int_tok h r
  | float h => exact float_tok h r
  | true => exact tok_cons _ _
  | false => exact tok_cons _ _

theorem default_tok {v : DefaultValue} {t : Str} (h : DefaultText v t) (r : Str) : Tok (t ++ r) := by
  cases h with
  | scalar h => exact scalar_tok h r
  | ident hi => exact hi.tok r

omit [Env] in
theorem single_tok {s : Single} {t : Str} (h : SingleText s t) (r : Str) : Tok (t ++ r) := by
  cases h with
  | scalar h => exact scalar_tok h r
  | string h => obtain ⟨-, rfl⟩ := h; exact tok_cons _ _

omit [Env] in
/-- A comma between items. -/
theorem comma_ok {w₁ w₂ t : Str} (h₁ : Trivia w₁) (h₂ : Trivia w₂) (ht : Solid t) :
    ∃ b, delimited cos0 (char ',') cos0 (w₁ ++ ',' :: (w₂ ++ t)) = some (t, b) :=
  ⟨',', delimited_eq (cos0_skip h₁ (solid_cons (by decide) (by decide))) (char_eq _ _) (cos0_skip h₂ ht)⟩

omit [Env] in
theorem comma_none {l r : Str} (hr : Next l r) (hl : ∀ c ∈ l, c ∈ c!"=();{}[],:" := by decide)
    (h : ',' ∉ l := by decide) : delimited cos0 (char ',') cos0 r = none := by
  obtain ⟨c, t, hc, e⟩ := hr.cos0 hl
  exact delimited_none_mid e (char_none (by rintro rfl; exact h hc))

theorem metaItem_eq {x : Ident × Option Single} {t r : Str} (h : MetaItem x t) (hr : Next c!",)" r)
    (hq : NoSpecial (t ++ r)) :
    pair ident (opt (preceded cos0 (preceded (char ':') (preceded cos0 single)))) (t ++ r) = some (r, x) := by
  cases h with
  | flag hk =>
    refine pair_eq (ident_eq hk hr.follow.delim.stops) (opt_none ?_)
    obtain ⟨c, t, hc, e⟩ := hr.cos0
    exact preceded_none_right e (preceded_none_left (char_none (by rintro rfl; revert hc; decide)))
  | @value k v w₁ w₂ t hk hw₁ hw₂ hv =>
    have e : k ++ (w₁ ++ ':' :: (w₂ ++ t)) ++ r = k ++ (w₁ ++ ':' :: (w₂ ++ (t ++ r))) := by simp
    rw [e] at hq ⊢
    have hq' : NoSpecial (t ++ r) := by
      refine NoSpecial.drop (s := (k ++ w₁) ++ ':' :: w₂) (by simpa using hq) ?_
      exact cut_append_cons _ word_punct (cut_trivia hw₂)
    refine pair_eq (ident_eq hk (Follow.trivia hw₁ ':').delim.stops) (opt_some ?_)
    exact preceded_eq (cos0_skip hw₁ (solid_cons (by decide) (by decide))) (preceded_eq (char_eq _ _)
      (preceded_eq (cos0_skip hw₂ (single_tok hv r).solid) (single_eq hv hr.follow.delim hq')))

theorem metaItem_tok {x : Ident × Option Single} {t : Str} (h : MetaItem x t) (r : Str) : Tok (t ++ r) := by
  cases h with
  | flag hk => exact hk.tok r
  | value hk => rw [List.append_assoc]; exact hk.tok _

theorem rawMetadata_eq {m : Metadata} {t r : Str} (h : MetaText (some m) t) (hq : NoSpecial (t ++ r)) :
    rawMetadata (t ++ r) = some (r, m) := by
  cases h with
  | @empty w hw =>
    have e : '(' :: (w ++ [')']) ++ r = '(' :: (w ++ ')' :: r) := by simp
    rw [e]
    have hs : Solid (')' :: r) := solid_cons (by decide) (by decide)
    refine delimited_eq (terminated_eq (char_eq _ _) (cos0_skip hw hs)) (k := ')' :: r) ?_
      (preceded_eq (cos0_solid hs) (char_eq _ _))
    unfold sepList0
    have : pair ident (opt (preceded cos0 (preceded (char ':') (preceded cos0 single)))) (')' :: r) = none := by
      refine pair_none_left (ident_none ?_)
      unfold identStart
      rw [Env.alphabetic_ascii _ (by decide)]
      decide
    rw [this]
  | @some m w₁ w₂ t hw₁ ht hw₂ =>
    have e : '(' :: (w₁ ++ (t ++ (w₂ ++ [')']))) ++ r = '(' :: (w₁ ++ (t ++ (w₂ ++ ')' :: r))) := by simp
    rw [e] at hq ⊢
    have hs : Solid (')' :: r) := solid_cons (by decide) (by decide)
    have hn : Next c!",)" (w₂ ++ ')' :: r) := .mk _ hw₂ ')' r
    have hq' : NoSpecial (t ++ (w₂ ++ ')' :: r)) :=
      NoSpecial.drop (s := '(' :: w₁) (by simpa using hq) (cut_cons word_punct (cut_trivia hw₁))
    have hsol : Solid (t ++ (w₂ ++ ')' :: r)) := by
      cases ht with
      | one ha => exact (metaItem_tok ha _).solid
      | cons ha => rw [List.append_assoc]; exact (metaItem_tok ha _).solid
    refine delimited_eq (terminated_eq (char_eq _ _) (cos0_skip hw₁ hsol)) (k := w₂ ++ ')' :: r) ?_
      (preceded_eq (cos0_skip hw₂ hs) (char_eq _ _))
    have h1 : sepList1 (delimited cos0 (char ',') cos0)
        (pair ident (opt (preceded cos0 (preceded (char ':') (preceded cos0 single))))) (t ++ (w₂ ++ ')' :: r)) =
        .some (w₂ ++ ')' :: r, m) := by
      refine sepRest_text (Q := NoSpecial) (K := Next c!",)") (sep_strict ',') metaItem_strict
        (word_punct (c := ',')) (fun pre t hc h => h.drop hc) ?_ ?_ ?_ ?_ ht hn (.inl ?_) hq'
      · intro w₁ w₂ t h₁ h₂ ht; exact comma_ok h₁ h₂ ht
      · intro w t hw; exact .mk _ hw ',' t
      · intro a t r ha hr hq; exact metaItem_eq ha hr hq
      · intro a t r ha; exact (metaItem_tok ha r).solid
      · exact comma_none (l := c!")") (.mk _ hw₂ ')' r)
    unfold sepList0
    obtain ⟨j, a, as, h3, -, -, -⟩ := sepList1_some h1
    rw [h3]
    exact h1

theorem NoSpecial.dropAt {s : Str} {c : Char} {t : Str} (h : NoSpecial (s ++ c :: t)) (hc : Env.word c = false) :
    NoSpecial (c :: t) := by
  have h' : NoSpecial t := NoSpecial.drop (s := s ++ [c]) (by simpa using h) (cut_snoc s hc)
  intro w hw a b e
  cases a with
  | nil =>
    exfalso
    have : ∃ d l, w = d :: l ∧ (d = 'n' ∨ d = 'i') := by
      simp only [List.mem_cons, List.not_mem_nil, or_false] at hw
      rcases hw with rfl | rfl | rfl
      · exact ⟨_, _, rfl, .inl rfl⟩
      · exact ⟨_, _, rfl, .inr rfl⟩
      · exact ⟨_, _, rfl, .inr rfl⟩
    obtain ⟨d, l, rfl, hd⟩ := this
    cases e
    rcases hd with rfl | rfl <;> · rw [Env.word_ascii _ (by decide)] at hc; revert hc; decide
  | cons d a =>
    cases e
    rcases h' w hw a b rfl with ⟨x, hx, hxw⟩ | hx
    · refine .inl ⟨x, ?_, hxw⟩
      cases a with
      | nil => cases hx
      | cons y a => rw [List.getLast?_cons_cons]; exact hx
    · exact .inr hx

omit [Env] in
theorem punct_solid' : ∀ c ∈ c!"=){};[],:", c ≠ '/' ∧ isSpace c = false ∧ c ≠ '(' := by decide

theorem rawMetadata_at {m : Metadata} {s t r : Str} (h : MetaText (some m) t) (hq : NoSpecial (s ++ (t ++ r))) :
    rawMetadata (t ++ r) = some (r, m) := by
  refine rawMetadata_eq h ?_
  cases h <;> exact NoSpecial.dropAt hq word_punct

/-- White space, metadata, white space and a punctuation mark. -/
theorem metadata_eq {m : Option Metadata} {mt : Str} (h : MetaText m mt) {w w' : Str} (hw : Trivia w)
    (hw' : Trivia w') {c : Char} (hc : c ∈ c!"=){};[],:") {s t : Str}
    (hq : NoSpecial (s ++ (w ++ (mt ++ (w' ++ c :: t))))) :
    ∃ j r, cos0 (w ++ (mt ++ (w' ++ c :: t))) = some (j, ()) ∧ metadata j = some (r, m) ∧
      cos0 r = some (c :: t, ()) := by
  have hs : Solid (c :: t) := solid_cons (punct_solid' c hc).1 (punct_solid' c hc).2.1
  cases m with
  | none =>
    cases h
    refine ⟨c :: t, c :: t, ?_, opt_none (delimited_none_left (terminated_none_left (char_none (punct_solid' c hc).2.2))),
      cos0_solid hs⟩
    rw [List.nil_append, cos0_trivia hw, cos0_skip hw' hs]
  | some m =>
    refine ⟨_, _, cos0_skip hw ?_, opt_some (rawMetadata_at (s := s ++ w) h (by simpa using hq)), cos0_skip hw' hs⟩
    cases h <;> exact solid_cons (by decide) (by decide)

theorem meta_next {m : Option Metadata} {mt : Str} (h : MetaText m mt) {w : Str} (hw : Trivia w) {l : Str} {c : Char}
    (hc : c ∈ l) (hp : '(' ∈ l) (t : Str) : Next l (mt ++ (w ++ c :: t)) := by
  cases h with
  | none => exact ⟨w, c, t, hw, hc, rfl⟩
  | empty => exact ⟨[], '(', _, .nil, hp, rfl⟩
  | some => exact ⟨[], '(', _, .nil, hp, rfl⟩

/-! ### Fields -/

omit [Env] in
theorem solid_punct (c : Char) (t : Str) (h : c ≠ '/' := by decide) (hs : isSpace c = false := by decide) :
    Solid (c :: t) := solid_cons h hs

theorem optDefault_eq {o : Option DefaultValue} {df r : Str} (h : OptDefault o df) (hn : Next c!"(;" r) {s : Str}
    (ho : NamesDefault o) (hq : NoSpecial (s ++ (df ++ r))) :
    Follow (df ++ r) ∧
      opt (preceded (pair cos0 (pair (char '=') cos0)) defaultValue) (df ++ r) = some (r, o) := by
  cases h with
  | none =>
    refine ⟨hn.follow, ?_⟩
    obtain ⟨c, s, hc, e⟩ := hn.cos0
    exact opt_none (preceded_none_left (pair_none_right e (pair_none_left (char_none
      (by rintro rfl; revert hc; decide)))))
  | @some v v₁ v₂ t hv₁ hv₂ hv =>
    have e : v₁ ++ '=' :: (v₂ ++ t) ++ r = v₁ ++ '=' :: (v₂ ++ (t ++ r)) := by simp
    rw [e] at hq ⊢
    refine ⟨Follow.trivia hv₁ '=', ?_⟩
    refine opt_some (preceded_eq (pair_eq (cos0_skip hv₁ (solid_punct _ _))
      (pair_eq (char_eq _ _) (cos0_skip hv₂ (default_tok hv _).solid))) (defaultValue_eq hv hn.follow ho ?_))
    refine NoSpecial.drop (s := (s ++ v₁) ++ '=' :: v₂) ?_ (cut_append_cons _ word_punct (cut_trivia hv₂))
    simpa using hq

theorem fieldDecl_eq {f : Field} {t r : Str} (h : FieldText f t) (hv : NamesDefault f.default) (hq : NoSpecial (t ++ r)) :
    fieldDecl (t ++ r) = some (r, f) := by
  cases h with
  | @mk d w₁ w₂ ty df w₃ m w₄ hd hi hw₁ hw₂ hty hdf hw₃ hm hw₄ =>
    have e : d ++ (f.id ++ (w₁ ++ ':' :: (w₂ ++ (ty ++ (df ++ (w₃ ++ (m ++ (w₄ ++ [';'])))))))) ++ r =
        d ++ (f.id ++ (w₁ ++ ':' :: (w₂ ++ (ty ++ (df ++ (w₃ ++ (m ++ (w₄ ++ ';' :: r)))))))) := by simp
    rw [e] at hq ⊢
    have hn : Next c!"(;" (w₃ ++ (m ++ (w₄ ++ ';' :: r))) :=
      (meta_next hm hw₄ (by decide) (by decide) r).skip hw₃
    obtain ⟨hf, hdef⟩ := optDefault_eq (s := d ++ (f.id ++ (w₁ ++ ':' :: (w₂ ++ ty)))) hdf hn hv (by simpa using hq)
    obtain ⟨j, k, h1, h2, h3⟩ := metadata_eq (s := d ++ (f.id ++ (w₁ ++ ':' :: (w₂ ++ (ty ++ df))))) hm hw₃ hw₄
      (c := ';') (by decide) (by simpa using hq)
    refine map_eq (a := (f.doc, f.id, f.ty, f.default, f.metadata)) (terminated_eq (j := k)
      (pair_eq (docComment_eq hd (hi.tok _)) (pair_eq (terminated_eq (ident_eq hi (Follow.trivia hw₁ ':').delim.stops)
        (pair_eq (cos0_skip hw₁ (solid_punct _ _)) (pair_eq (char_eq _ _) (cos0_skip hw₂ (ty_tok hty _).solid))))
        (pair_eq (type_eq hty hf) (pair_eq hdef (preceded_eq h1 h2)))))
      (pair_eq h3 (char_eq _ _)))

theorem field_solid {f : Field} {t : Str} (h : FieldText f t) (r : Str) : Solid (t ++ r) := by
  cases h with
  | mk hd hi => rw [List.append_assoc, List.append_assoc]; exact docText_solid hd (hi.tok _).solid

theorem cut_end (s : Str) (c : Char) (h : c ∈ c!"=();{}[],:." := by decide) : Cut (s ++ [c]) :=
  cut_snoc s (word_punct h)

theorem field_cut {f : Field} {t : Str} (h : FieldText f t) : Cut t := by
  cases h with
  | @mk d w₁ w₂ ty df w₃ m w₄ =>
    have := cut_end (d ++ (f.id ++ (w₁ ++ ':' :: (w₂ ++ (ty ++ (df ++ (w₃ ++ (m ++ w₄)))))))) ';'
    simpa using this

/-- A list of fields or methods up to the closing brace. -/
theorem body_eq {p : P α} {R : α → Str → Prop} (hp : Strict p)
    (item : ∀ a t r, R a t → NoSpecial (t ++ r) → p (t ++ r) = some (r, a))
    (start : ∀ a t r, R a t → Solid (t ++ r)) (hcut : ∀ a t, R a t → Cut t)
    (hbrace : ∀ r, p ('}' :: r) = none)
    {as : List α} {t r : Str} (h : ManyText R as t) (hq : NoSpecial (t ++ '}' :: r)) :
    many0 (delimited cos0 p cos0) (t ++ '}' :: r) = some ('}' :: r, as) := by
  have hs : cos0 ('}' :: r) = some ('}' :: r, ()) := cos0_solid (solid_punct _ _)
  have he : delimited cos0 p cos0 ('}' :: r) = none := delimited_none_mid hs (hbrace r)
  have := many0_text (Q := NoSpecial) hp (fun pre t hc h => NoSpecial.drop h hc) item start hcut h .nil hs he he
    (fun _ => rfl) (by simpa using hq)
  rw [List.nil_append] at this
  rw [this]
  simp

omit [Env] in
theorem body_solid {R : α → Str → Prop} (start : ∀ a t r, R a t → Solid (t ++ r)) {as : List α} {t : Str}
    (h : ManyText R as t) (r : Str) : Solid (t ++ '}' :: r) := by
  cases h with
  | nil => exact solid_punct _ _
  | cons ha => rw [List.append_assoc]; exact start _ _ _ ha

omit [Env] in
theorem docComment_punct (c : Char) (r : Str) (h : c ≠ '/' := by decide) (hs : isSpace c = false := by decide) :
    docComment (c :: r) = some (c :: r, []) := docComment_eq .nil (tok_cons c r h hs)

theorem identStart_punct (c : Char) (h : c ∈ c!"=();{}[],:\"" := by decide) : identStart c = false := by
  have : c.toNat < 128 ∧ (c.isAlpha || c == '_') = false := by revert h; revert c; decide
  unfold identStart
  rw [Env.alphabetic_ascii _ this.1, this.2]

theorem fieldDecl_brace (r : Str) : fieldDecl ('}' :: r) = none :=
  map_none (terminated_none_left (pair_none_right (docComment_punct _ _) (pair_none_left (terminated_none_left
    (ident_none (identStart_punct _))))))

omit [Env] in
theorem ManyText.and {R : α → Str → Prop} {C : α → Prop} {as : List α} {t : Str} (h : ManyText R as t)
    (hc : ∀ a ∈ as, C a) : ManyText (fun a t => R a t ∧ C a) as t := by
  induction h with
  | nil => exact .nil
  | cons ha hw _ ih => exact .cons ⟨ha, hc _ List.mem_cons_self⟩ hw (ih fun a h => hc a (List.mem_cons_of_mem _ h))

/-! ### Tables and structs -/

theorem productBody_eq {p : Product} {w₁ w₂ m w₃ w₄ fs s r : Str} (hw₁ : Trivia w₁) (hne : w₁ ≠ []) (hi : IsIdent p.id)
    (hw₂ : Trivia w₂) (hm : MetaText p.metadata m) (hw₃ : Trivia w₃) (hw₄ : Trivia w₄)
    (hfs : ManyText FieldText p.fields fs) (hv : ∀ f ∈ p.fields, NamesDefault f.default)
    (hq : NoSpecial (s ++ (w₁ ++ (p.id ++ (w₂ ++ (m ++ (w₃ ++ '{' :: (w₄ ++ (fs ++ '}' :: r))))))))) :
    productTypeBody (w₁ ++ (p.id ++ (w₂ ++ (m ++ (w₃ ++ '{' :: (w₄ ++ (fs ++ '}' :: r))))))) =
      some (r, (p.id, p.metadata, p.fields)) := by
  obtain ⟨j, k, h1, h2, h3⟩ := metadata_eq (s := s ++ (w₁ ++ p.id)) (c := '{') (t := w₄ ++ (fs ++ '}' :: r))
    hm hw₂ hw₃ (by decide) (by simpa using hq)
  have hn : Next c!"({" (w₂ ++ (m ++ (w₃ ++ '{' :: (w₄ ++ (fs ++ '}' :: r))))) :=
    (meta_next hm hw₃ (by decide) (by decide) _).skip hw₂
  have hq' : NoSpecial (fs ++ '}' :: r) :=
    NoSpecial.drop (s := (s ++ (w₁ ++ (p.id ++ (w₂ ++ (m ++ w₃))))) ++ '{' :: w₄) (by simpa using hq)
      (cut_append_cons _ word_punct (cut_trivia hw₄))
  exact pair_eq (delimited_eq (cos1_skip hw₁ hne (hi.tok _).solid) (ident_eq hi hn.follow.delim.stops) h1)
    (pair_eq (terminated_eq h2 h3)
      (delimited_eq (preceded_eq (char_eq _ _) (cos0_skip hw₄ (body_solid (fun _ _ r h => field_solid h r) hfs r)))
        (body_eq fieldDecl_strict (fun _ _ _ h hq => fieldDecl_eq h.1 h.2 hq) (fun _ _ r h => field_solid h.1 r)
          (fun _ _ h => field_cut h.1) fieldDecl_brace (hfs.and hv) hq')
        (terminated_eq (cos0_solid (solid_punct _ _)) (char_eq _ _))))

theorem productDecl_eq {kw : Str} (hk : Tok kw) {p : Product} {t r : Str} (h : ProductText kw p t)
    (hv : ∀ f ∈ p.fields, NamesDefault f.default) (hq : NoSpecial (t ++ r)) : productDecl kw (t ++ r) = some (r, p) := by
  cases h with
  | @mk d w₁ w₂ m w₃ w₄ fs hd hw₁ hne hi hw₂ hm hw₃ hw₄ hfs =>
    have e : d ++ (kw ++ (w₁ ++ (p.id ++ (w₂ ++ (m ++ (w₃ ++ '{' :: (w₄ ++ (fs ++ ['}'])))))))) ++ r =
      d ++ (kw ++ (w₁ ++ (p.id ++ (w₂ ++ (m ++ (w₃ ++ '{' :: (w₄ ++ (fs ++ '}' :: r)))))))) := by simp
    rw [e] at hq ⊢
    refine map_eq (a := (p.doc, p.id, p.metadata, p.fields)) (pair_eq (docComment_eq hd (hk.append _))
      (preceded_eq (tag_eq _ _) (productBody_eq (s := d ++ kw) hw₁ hne hi hw₂ hm hw₃ hw₄ hfs hv (by simpa using hq))))

/-! ### Enums and unions -/

omit [Env] in
theorem optInt_tok {o : Option Int} {t : Str} (h : OptInt o t) {l r : Str} (hr : Next l r) (hl : '=' ∈ l) :
    Next l (t ++ r) := by
  cases h with
  | none => exact hr
  | some hw₁ => rw [List.append_assoc]; exact ⟨_, '=', _, hw₁, hl, rfl⟩

theorem enumvalDecl_eq {v : EnumVariant} {t r : Str} (h : VariantText v t) (hr : Next c!",}" r) :
    enumvalDecl (t ++ r) = some (r, v) := by
  cases h with
  | @mk d t hd hi ht =>
    have e : d ++ (v.id ++ t) ++ r = d ++ (v.id ++ (t ++ r)) := by simp
    rw [e]
    have hr' : Next c!"=,}" r := by
      obtain ⟨w, c, t, hw, hc, rfl⟩ := hr
      exact ⟨w, c, t, hw, List.mem_cons_of_mem _ hc, rfl⟩
    refine map_eq (a := (v.doc, v.id, v.value)) (pair_eq (docComment_eq hd (hi.tok _)) (pair_eq
      (ident_eq hi (optInt_tok ht hr' (by decide)).follow.delim.stops) ?_))
    generalize v.value = o at ht
    cases ht with
    | none =>
      obtain ⟨c, s, hc, e⟩ := hr.cos0
      exact opt_none (preceded_none_right e (preceded_none_left (char_none (by rintro rfl; revert hc; decide))))
    | @some i w₁ w₂ t hw₁ hw₂ hi =>
      have e : w₁ ++ '=' :: (w₂ ++ t) ++ r = w₁ ++ '=' :: (w₂ ++ (t ++ r)) := by simp
      rw [e]
      exact opt_some (preceded_eq (cos0_skip hw₁ (solid_punct _ _)) (preceded_eq (char_eq _ _)
        (preceded_eq (cos0_skip hw₂ (int_tok hi _).solid) (integerConstant_eq hi hr.follow.delim))))

theorem variant_solid {v : EnumVariant} {t : Str} (h : VariantText v t) (r : Str) : Solid (t ++ r) := by
  cases h with
  | mk hd hi => rw [List.append_assoc, List.append_assoc]; exact docText_solid hd (hi.tok _).solid

theorem enumvalDecl_brace (r : Str) : enumvalDecl ('}' :: r) = none :=
  map_none (pair_none_right (docComment_punct _ _) (pair_none_left (ident_none (identStart_punct _))))

theorem variants_eq {vs : List EnumVariant} {t r : Str} (h : SepText ',' VariantText vs t) (hr : Next c!",}" r)
    (hend : delimited cos0 (char ',') cos0 r = none ∨
      ∃ r' b, delimited cos0 (char ',') cos0 r = some (r', b) ∧ enumvalDecl r' = none) :
    sepList1 (delimited cos0 (char ',') cos0) enumvalDecl (t ++ r) = some (r, vs) ∧ Solid (t ++ r) := by
  constructor
  · refine sepRest_text (Q := fun _ => True) (K := Next c!",}") (sep_strict ',') enumvalDecl_strict
      (word_punct (c := ',')) (fun _ _ _ _ => trivial) ?_ ?_ ?_ ?_ h hr hend trivial
    · intro w₁ w₂ t h₁ h₂ ht; exact comma_ok h₁ h₂ ht
    · intro w t hw; exact .mk _ hw ',' t
    · intro a t r ha hr _; exact enumvalDecl_eq ha hr
    · intro a t r ha; exact variant_solid ha r
  · cases h with
    | one ha => exact variant_solid ha _
    | cons ha => rw [List.append_assoc]; exact variant_solid ha _

theorem enumBody_eq {vs : List EnumVariant} {t r : Str} (h : BodyText vs t) : enumBody (t ++ r) = some (r, vs) := by
  have hb : cos0 ('}' :: r) = some ('}' :: r, ()) := cos0_solid (solid_punct _ _)
  cases h with
  | @plain w₁ w₂ t w₃ hw₁ hw₂ hvs hw₃ =>
    have e : w₁ ++ '{' :: (w₂ ++ (t ++ (w₃ ++ ['}']))) ++ r = w₁ ++ '{' :: (w₂ ++ (t ++ (w₃ ++ '}' :: r))) := by simp
    rw [e]
    obtain ⟨h1, h2⟩ := variants_eq hvs (.mk _ hw₃ '}' r) (.inl (comma_none (l := c!"}") (.mk _ hw₃ '}' r)))
    refine delimited_eq (delimited_eq (cos0_skip hw₁ (solid_punct _ _)) (char_eq _ _) (cos0_skip hw₂ h2))
      (terminated_eq h1 (opt_none ?_)) (preceded_eq (cos0_skip hw₃ (solid_punct _ _)) (char_eq _ _))
    exact pair_none_right (cos0_skip hw₃ (solid_punct _ _)) (pair_none_left (char_none (by decide)))
  | @comma w₁ w₂ t w₃ w₄ hw₁ hw₂ hvs hw₃ hw₄ =>
    have e : w₁ ++ '{' :: (w₂ ++ (t ++ (w₃ ++ ',' :: (w₄ ++ ['}'])))) ++ r =
      w₁ ++ '{' :: (w₂ ++ (t ++ (w₃ ++ ',' :: (w₄ ++ '}' :: r)))) := by simp
    rw [e]
    obtain ⟨b, hc⟩ := comma_ok hw₃ hw₄ (solid_punct '}' r)
    obtain ⟨h1, h2⟩ := variants_eq hvs (.mk _ hw₃ ',' _) (.inr ⟨_, _, hc, enumvalDecl_brace r⟩)
    exact delimited_eq (delimited_eq (cos0_skip hw₁ (solid_punct _ _)) (char_eq _ _) (cos0_skip hw₂ h2))
      (terminated_eq h1 (opt_some (pair_eq (cos0_skip hw₃ (solid_punct _ _)) (pair_eq (char_eq _ _)
        (cos0_skip hw₄ (solid_punct _ _)))))) (preceded_eq hb (char_eq _ _))

theorem bodyText_open {vs : List EnumVariant} {b : Str} (h : BodyText vs b) :
    (∃ w t, Trivia w ∧ b = w ++ '{' :: t) ∧ Cut b := by
  cases h with
  | @plain w₁ w₂ t w₃ hw₁ =>
    exact ⟨⟨_, _, hw₁, rfl⟩, by have := cut_end (w₁ ++ '{' :: (w₂ ++ (t ++ w₃))) '}'; simpa using this⟩
  | @comma w₁ w₂ t w₃ w₄ hw₁ =>
    exact ⟨⟨_, _, hw₁, rfl⟩, by have := cut_end (w₁ ++ '{' :: (w₂ ++ (t ++ (w₃ ++ ',' :: w₄)))) '}'; simpa using this⟩

theorem enumBody_skip {b r t : Str} {w : Str} (hw : Trivia w) (e : b = w ++ '{' :: t) :
    enumBody ('{' :: (t ++ r)) = enumBody (b ++ r) := by
  subst e
  have : cos0 (w ++ '{' :: t ++ r) = cos0 ('{' :: (t ++ r)) := by
    rw [List.append_assoc, cos0_trivia hw]; rfl
  unfold enumBody delimited preceded
  simp only [map, pair, this]

theorem enumDecl_eq {en : Enum} {t r : Str} (h : EnumText en t) (hq : NoSpecial (t ++ r)) :
    enumDecl (t ++ r) = some (r, en) := by
  cases h with
  | @mk d w₁ w₂ w₃ ty m b hd hw₁ hne hi hw₂ hw₃ hty hm hb =>
    have e : d ++ (c!"enum" ++ (w₁ ++ (en.id ++ (w₂ ++ ':' :: (w₃ ++ (ty ++ (m ++ b))))))) ++ r =
      d ++ (c!"enum" ++ (w₁ ++ (en.id ++ (w₂ ++ ':' :: (w₃ ++ (ty ++ (m ++ (b ++ r)))))))) := by simp
    rw [e] at hq ⊢
    obtain ⟨⟨w, s, hw, rfl⟩, -⟩ := bodyText_open hb
    have hn : Next c!"({" (m ++ (w ++ '{' :: s ++ r)) := by
      have := meta_next hm hw (l := c!"({") (c := '{') (by decide) (by decide) (s ++ r)
      simpa using this
    have hmeta : metadata (m ++ (w ++ '{' :: s ++ r)) = some (w ++ '{' :: s ++ r, en.metadata) := by
      generalize en.metadata = o at hm
      cases o with
      | none =>
        cases hm
        refine opt_none (delimited_none_left (terminated_none_left ?_))
        have e' : [] ++ (w ++ '{' :: s ++ r) = w ++ '{' :: (s ++ r) := by simp
        rw [e']
        rcases trivia_head (t := '{' :: (s ++ r)) hw with rfl | ⟨c, s', e'', hc⟩
        · exact char_none (by decide)
        · rw [e'']
          exact char_none (by rcases hc with rfl | rfl | rfl | rfl | rfl <;> decide)
      | some o =>
        exact opt_some (rawMetadata_at (s := d ++ (c!"enum" ++ (w₁ ++ (en.id ++ (w₂ ++ ':' :: (w₃ ++ ty)))))) hm
          (by simpa using hq))
    exact map_eq (a := (en.doc, en.id, en.baseType, en.metadata, en.variants)) (pair_eq
      (docComment_eq hd ((tok_cons 'e' c!"num").append _)) (pair_eq (preceded_eq (tag_eq _ _)
        (delimited_eq (cos1_skip hw₁ hne (hi.tok _).solid) (ident_eq hi (Follow.trivia hw₂ ':').delim.stops)
          (cos0_skip hw₂ (solid_punct _ _))))
        (pair_eq (preceded_eq (char_eq _ _) (preceded_eq (cos0_skip hw₃ (ty_tok hty _).solid) (type_eq hty hn.follow)))
          (pair_eq hmeta (enumBody_eq hb)))))

theorem unionDecl_eq {u : Union} {t r : Str} (h : UnionText u t) (hq : NoSpecial (t ++ r)) :
    unionDecl (t ++ r) = some (r, u) := by
  cases h with
  | @mk d w₁ w₂ m b hd hw₁ hne hi hw₂ hm hb =>
    have e : d ++ (c!"union" ++ (w₁ ++ (u.id ++ (w₂ ++ (m ++ b))))) ++ r =
      d ++ (c!"union" ++ (w₁ ++ (u.id ++ (w₂ ++ (m ++ (b ++ r)))))) := by simp
    rw [e] at hq ⊢
    obtain ⟨⟨w, s, hw, rfl⟩, -⟩ := bodyText_open hb
    have hn : Next c!"({" (w₂ ++ (m ++ (w ++ '{' :: (s ++ r)))) :=
      (meta_next hm hw (by decide) (by decide) (s ++ r)).skip hw₂
    obtain ⟨j, k, h1, h2, h3⟩ := metadata_eq (s := d ++ (c!"union" ++ (w₁ ++ u.id))) (c := '{') (t := s ++ r)
      hm hw₂ hw (by decide) (by simpa using hq)
    have e' : w ++ '{' :: s ++ r = w ++ '{' :: (s ++ r) := by simp
    have hbody : enumBody k = some (r, u.variants) := by
      have h4 := enumBody_eq (r := r) hb
      rw [e'] at h4
      have h5 : cos0 (w ++ '{' :: (s ++ r)) = some ('{' :: (s ++ r), ()) := cos0_skip hw (solid_punct _ _)
      unfold enumBody delimited preceded at h4 ⊢
      simp only [map, pair, h5, h3] at h4 ⊢
      exact h4
    rw [e']
    exact map_eq (a := (u.doc, u.id, u.metadata, u.variants)) (pair_eq
      (docComment_eq hd ((tok_cons 'u' c!"nion").append _)) (pair_eq (preceded_eq (tag_eq _ _)
        (delimited_eq (cos1_skip hw₁ hne (hi.tok _).solid) (ident_eq hi hn.follow.delim.stops) h1))
        (pair_eq h2 hbody)))

/-! ### Services -/

theorem rpcMethod_eq {m : RpcMethod} {t r : Str} (h : MethodText m t) (hq : NoSpecial (t ++ r)) :
    rpcMethod (t ++ r) = some (r, m) := by
  cases h with
  | @mk d w₁ w₂ q₁ w₃ w₄ w₅ q₂ w₆ mt w₇ hd hi hw₁ hw₂ hq₁ hw₃ hw₄ hw₅ hq₂ hw₆ hm hw₇ =>
    have e : d ++ (m.id ++ (w₁ ++ '(' :: (w₂ ++ (q₁ ++ (w₃ ++ ')' :: (w₄ ++ ':' :: (w₅ ++ (q₂ ++
        (w₆ ++ (mt ++ (w₇ ++ [';']))))))))))) ++ r = d ++ (m.id ++ (w₁ ++ '(' :: (w₂ ++ (q₁ ++ (w₃ ++ ')' ::
        (w₄ ++ ':' :: (w₅ ++ (q₂ ++ (w₆ ++ (mt ++ (w₇ ++ ';' :: r))))))))))) := by simp
    rw [e] at hq ⊢
    have hn : Next c!"(;" (w₆ ++ (mt ++ (w₇ ++ ';' :: r))) := (meta_next hm hw₇ (by decide) (by decide) r).skip hw₆
    obtain ⟨j, k, h1, h2, h3⟩ := metadata_eq (s := d ++ (m.id ++ (w₁ ++ '(' :: (w₂ ++ (q₁ ++ (w₃ ++ ')' ::
        (w₄ ++ ':' :: (w₅ ++ q₂)))))))) hm hw₆ hw₇ (c := ';') (t := r) (by decide) (by simpa using hq)
    exact map_eq (a := (m.doc, m.id, m.requestType, m.responseType, m.metadata)) (pair_eq
      (docComment_eq hd (hi.tok _)) (pair_eq (terminated_eq (ident_eq hi (Follow.trivia hw₁ '(').delim.stops)
        (cos0_skip hw₁ (solid_punct _ _)))
        (pair_eq (delimited_eq (char_eq _ _) (delimited_eq (cos0_skip hw₂ (qident_tok hq₁ _).solid)
          (qualifiedIdent_eq hq₁ (Follow.trivia hw₃ ')')) (cos0_skip hw₃ (solid_punct _ _))) (char_eq _ _))
        (preceded_eq (delimited_eq (cos0_skip hw₄ (solid_punct _ _)) (char_eq _ _)
          (cos0_skip hw₅ (qident_tok hq₂ _).solid))
          (terminated_eq (pair_eq (qualifiedIdent_eq hq₂ hn.follow) (preceded_eq h1 h2))
            (terminated_eq h3 (char_eq _ _)))))))

theorem method_solid {m : RpcMethod} {t : Str} (h : MethodText m t) (r : Str) : Solid (t ++ r) := by
  cases h with
  | mk hd hi => rw [List.append_assoc, List.append_assoc]; exact docText_solid hd (hi.tok _).solid

theorem method_cut {m : RpcMethod} {t : Str} (h : MethodText m t) : Cut t := by
  cases h with
  | @mk d w₁ w₂ q₁ w₃ w₄ w₅ q₂ w₆ mt w₇ =>
    have := cut_end (d ++ (m.id ++ (w₁ ++ '(' :: (w₂ ++ (q₁ ++ (w₃ ++ ')' :: (w₄ ++ ':' :: (w₅ ++ (q₂ ++
        (w₆ ++ (mt ++ w₇))))))))))) ';'
    simpa using this

theorem rpcMethod_brace (r : Str) : rpcMethod ('}' :: r) = none :=
  map_none (pair_none_right (docComment_punct _ _) (pair_none_left (terminated_none_left
    (ident_none (identStart_punct _)))))

omit [Env] in
theorem many1_of_many0 {p : P α} (hp : Consumes p) {i r : Str} {as : List α} (h : many0 p i = some (r, as))
    (hne : as ≠ []) : many1 p i = some (r, as) := by
  rw [many0_eq hp] at h
  unfold many1
  split at h
  · cases h; exact absurd rfl hne
  · rename_i e
    split at h
    · cases h
    · rw [e]; exact h

omit [Env] in
theorem many_trivia {p : P α} (hp : Strict p) {w t : Str} (hw : Trivia w) (ht : Solid t) {r : Str} {as : List α}
    (h : many0 (delimited cos0 p cos0) t = some (r, as)) (hne : as ≠ []) :
    many0 (delimited cos0 p cos0) (w ++ t) = some (r, as) := by
  have h1 : delimited cos0 p cos0 (w ++ t) = delimited cos0 p cos0 t := by
    unfold delimited preceded
    simp only [map, pair, cos0_skip hw ht, cos0_solid ht]
  have hc := (spaced_strict hp).consumes
  rw [many0_eq hc] at h ⊢
  rw [h1]
  split at h
  · cases h; exact absurd rfl hne
  · rename_i j a e
    split at h
    · cases h
    · have := (spaced_strict hp).ne (h1.trans e)
      rw [if_neg (by rintro rfl; omega)]
      exact h

theorem rpcDecl_eq {m : Rpc} {t r : Str} (h : RpcText m t) (hq : NoSpecial (t ++ r)) :
    rpcDecl (t ++ r) = some (r, m) := by
  cases h with
  | @mk d w₁ w₂ w₃ ms hd hw₁ hne hi hw₂ hw₃ hm hms =>
    have e : d ++ (c!"rpc_service" ++ (w₁ ++ (m.id ++ (w₂ ++ '{' :: (w₃ ++ (ms ++ ['}'])))))) ++ r =
      d ++ (c!"rpc_service" ++ (w₁ ++ (m.id ++ (w₂ ++ '{' :: (w₃ ++ (ms ++ '}' :: r)))))) := by simp
    rw [e] at hq ⊢
    have hq' : NoSpecial (ms ++ '}' :: r) :=
      NoSpecial.drop (s := (d ++ (c!"rpc_service" ++ (w₁ ++ (m.id ++ w₂)))) ++ '{' :: w₃) (by simpa using hq)
        (cut_append_cons _ word_punct (cut_trivia hw₃))
    have h1 := body_eq rpcMethod_strict (fun _ _ _ h hq => rpcMethod_eq h hq) (fun _ _ r h => method_solid h r)
      (fun _ _ h => method_cut h) rpcMethod_brace hms hq'
    have h2 := many1_of_many0 (spaced_strict rpcMethod_strict).consumes
      (many_trivia rpcMethod_strict hw₃ (body_solid (fun _ _ r h => method_solid h r) hms r) h1 hm) hm
    exact map_eq (a := (m.doc, m.id, m.methods)) (pair_eq (docComment_eq hd ((tok_cons 'r' c!"pc_service").append _))
      (pair_eq (preceded_eq (terminated_eq (tag_eq _ _) (cos1_skip hw₁ hne (hi.tok _).solid))
        (terminated_eq (ident_eq hi (Follow.trivia hw₂ '{').delim.stops) (cos0_skip hw₂ (solid_punct _ _))))
        (delimited_eq (char_eq _ _) h2 (char_eq _ _))))

/-! ### Other declarations -/

omit [Env] in
theorem keyword_eq {α : Type} {kw : Str} (hk : Tok kw) {p : P α} {d : Comment} {s t r : Str} {a : α} {gap : Bool}
    (h : KeywordText kw gap d s t) (hs : ∀ r, Solid (s ++ r))
    (hp : ∀ w, Trivia w → p (s ++ (w ++ ';' :: r)) = some (w ++ ';' :: r, a)) :
    keywordDecl kw (delimited (if gap then cos1 else cos0) p cos0) (t ++ r) = some (r, (d, a)) := by
  cases h with
  | @mk dt w₁ w₂ hd hw₁ hg hw₂ =>
    have e : dt ++ (kw ++ (w₁ ++ (s ++ (w₂ ++ [';'])))) ++ r = dt ++ (kw ++ (w₁ ++ (s ++ (w₂ ++ ';' :: r)))) := by simp
    rw [e]
    refine pair_eq (docComment_eq hd (hk.append _)) (delimited_eq (tag_eq _ _) (delimited_eq (a := ()) ?_ (hp w₂ hw₂)
      (cos0_skip hw₂ (solid_punct _ _))) (char_eq _ _))
    cases gap with
    | true => exact cos1_skip hw₁ (hg rfl) (hs _)
    | false => exact cos0_skip hw₁ (hs _)

omit [Env] in
theorem string_solid {s t : Str} (h : StringText s t) (r : Str) : Solid (t ++ r) := by
  obtain ⟨-, rfl⟩ := h
  exact solid_punct _ _

theorem namespaceDecl_eq {q : QIdent} {d : Comment} {s t r : Str} (hq : QIdentText q s)
    (h : KeywordText c!"namespace" true d s t) : namespaceDecl (t ++ r) = some (r, (d, q)) :=
  keyword_eq (gap := true) (tok_cons 'n' _) h (fun r => (qident_tok hq r).solid)
    (fun w hw => qualifiedIdent_eq hq (Follow.trivia hw ';'))

theorem rootDecl_eq {i : Ident} {d : Comment} {t r : Str} (hi : IsIdent i)
    (h : KeywordText c!"root_type" true d i t) : rootDecl (t ++ r) = some (r, (d, i)) :=
  keyword_eq (gap := true) (tok_cons 'r' _) h (fun r => (hi.tok r).solid)
    (fun w hw => ident_eq hi (Follow.trivia hw ';').delim.stops)

omit [Env] in
theorem fileExtensionDecl_eq {x : Str} {d : Comment} {s t r : Str} (hs : StringText x s)
    (h : KeywordText c!"file_extension" false d s t) : fileExtensionDecl (t ++ r) = some (r, (d, x)) :=
  keyword_eq (gap := false) (tok_cons 'f' _) h (fun r => string_solid hs r)
    (fun w hw => stringConstant_eq hs)

theorem attributeDecl_eq {i : Ident} {d : Comment} {s t r : Str} (hs : IdentText i s ∨ StringText i s)
    (h : KeywordText c!"attribute" true d s t) : attributeDecl (t ++ r) = some (r, (d, i)) := by
  refine keyword_eq (gap := true) (tok_cons 'a' _) h (fun r => ?_) (fun w hw => ?_)
  · rcases hs with ⟨hi, rfl⟩ | hs
    · exact (hi.tok r).solid
    · exact string_solid hs r
  · rcases hs with ⟨hi, rfl⟩ | hs
    · exact alt_left (ident_eq hi (Follow.trivia hw ';').delim.stops)
    · rw [alt_right]
      · exact stringConstant_eq hs
      · obtain ⟨-, rfl⟩ := hs
        exact ident_none (identStart_punct _)

omit [Env] in
theorem utf8_ascii {c : Char} (h : c.toNat < 128) : String.utf8EncodeChar c = [UInt8.ofNat c.toNat] := by
  have h' : c.val.toNat ≤ 0x7f := by have : c.val.toNat = c.toNat := rfl; omega
  unfold String.utf8EncodeChar
  simp only [h', if_true]
  rfl

omit [Env] in
theorem fileIdentifierDecl_eq {c₁ c₂ c₃ c₄ : Char} {d : Comment} {t r : Str}
    (hc : ∀ c ∈ [c₁, c₂, c₃, c₄], c.toNat < 128)
    (h : KeywordText c!"file_identifier" false d ['"', c₁, c₂, c₃, c₄, '"'] t) :
    fileIdentifierDecl (t ++ r) =
      some (r, (d, [c₁, c₂, c₃, c₄].map fun c => UInt8.ofNat c.toNat)) := by
  have h1 : keywordDecl c!"file_identifier"
      (delimited cos0 (delimited (char '"') (take 4) (char '"')) cos0) (t ++ r) = some (r, (d, [c₁, c₂, c₃, c₄])) :=
    keyword_eq (gap := false) (tok_cons 'f' _) h (fun r => solid_punct _ _)
      (fun w hw => delimited_eq (char_eq _ _) (k := '"' :: (w ++ ';' :: r)) (by simp [take]) (char_eq _ _))
  have h2 : utf8 [c₁, c₂, c₃, c₄] = [c₁, c₂, c₃, c₄].map fun c => UInt8.ofNat c.toNat := by
    unfold utf8
    simp only [List.flatMap_cons, List.flatMap_nil, utf8_ascii (hc c₁ (by simp)), utf8_ascii (hc c₂ (by simp)),
      utf8_ascii (hc c₃ (by simp)), utf8_ascii (hc c₄ (by simp))]
    rfl
  refine mapRes_eq h1 ?_
  simp only [h2]
  rfl

theorem includeDecl_eq {i : Include} {t r : Str} (h : IncludeText i t) : includeDecl (t ++ r) = some (r, i) := by
  cases h with
  | mk hs hst hk =>
    have h1 : keywordDecl c!"include" (delimited cos1 stringConstant cos0) (t ++ r) = some (r, (i.doc, i.path)) :=
      keyword_eq (gap := true) (tok_cons 'i' _) hk (fun r => string_solid hs r) (fun w hw => stringConstant_eq hs)
    refine mapRes_eq h1 ?_
    simp only [hst]

/-! ### Objects -/

/-- A value is read whole, whatever follows in a list or object. -/
def ValueGood (v : Value) (t : Str) : Prop :=
  ∀ r, Next c!",}]" r → NoSpecial (t ++ r) → value_ (t ++ r) = some (r, v)

omit [Env] in
theorem docText_head {d : Comment} {t : Str} (h : DocText d t) (c : Char) (s : Str) :
    ∃ x u, t ++ c :: s = x :: u ∧ (x = '/' ∨ x = c) := by
  cases h with
  | nil => exact ⟨c, s, rfl, .inr rfl⟩
  | cons => exact ⟨'/', _, rfl, .inl rfl⟩

theorem single_none {c : Char} {t : Str} (h : c ∈ c!"/{[") (hq : NoSpecial (c :: t)) : single (c :: t) = none := by
  have hc : ∀ c ∈ c!"/{[", c ≠ '-' ∧ c ≠ '+' ∧ c ≠ '.' ∧ c.isDigit = false ∧ c ≠ 't' ∧ c ≠ 'f' ∧ c ≠ '"' := by decide
  obtain ⟨h1, h2, h3, h4, h5, h6, h7⟩ := hc c h
  unfold single
  rw [alt_right (map_none (scalar_none h1 h2 h3 h4 ?_ ?_ hq))]
  · exact map_none (map_none (delimited_none_left (char_none h7)))
  · intro h; exact h5 (List.cons_prefix_cons.mp h).1.symm
  · intro h; exact h6 (List.cons_prefix_cons.mp h).1.symm

theorem value_solid {v : Value} {t : Str} (h : ValueText v t) (r : Str) : Solid (t ++ r) := by
  cases h with
  | single h => exact (single_tok h r).solid
  | object h =>
    cases h with
    | empty hd => rw [List.append_assoc]; exact docText_solid hd (solid_punct _ _)
    | some hd => rw [List.append_assoc]; exact docText_solid hd (solid_punct _ _)
  | emptyList => exact solid_punct _ _
  | list => exact solid_punct _ _

/-- A named value of an object. -/
def PairGood (x : Ident × Value) (t : Str) : Prop :=
  ∃ w₁ w₂ u, IsIdent x.1 ∧ Trivia w₁ ∧ Trivia w₂ ∧ ValueText x.2 u ∧ ValueGood x.2 u ∧
    t = x.1 ++ (w₁ ++ ':' :: (w₂ ++ u))

theorem valueList_eq {l : List Value} {w₁ w₂ t r : Str} (hw₁ : Trivia w₁) (hw₂ : Trivia w₂)
    (h : SepText ',' (fun v t => ValueText v t ∧ ValueGood v t) l t)
    (hq : NoSpecial ('[' :: (w₁ ++ (t ++ (w₂ ++ ']' :: r))))) :
    valueListOf value_ ('[' :: (w₁ ++ (t ++ (w₂ ++ ']' :: r)))) = some (r, l) := by
  have hs : Solid (']' :: r) := solid_cons (by decide) (by decide)
  have hn : Next c!",}]" (w₂ ++ ']' :: r) := .mk _ hw₂ ']' r
  have hq' : NoSpecial (t ++ (w₂ ++ ']' :: r)) :=
    NoSpecial.drop (s := '[' :: w₁) (by simpa using hq) (cut_cons word_punct (cut_trivia hw₁))
  have hsol : Solid (t ++ (w₂ ++ ']' :: r)) := by
    cases h with
    | one ha => exact value_solid ha.1 _
    | cons ha => rw [List.append_assoc]; exact value_solid ha.1 _
  refine delimited_eq (terminated_eq (char_eq _ _) (cos0_skip hw₁ hsol)) (k := w₂ ++ ']' :: r) ?_
    (preceded_eq (cos0_skip hw₂ hs) (char_eq _ _))
  have h1 : sepList1 (delimited cos0 (char ',') cos0) value_ (t ++ (w₂ ++ ']' :: r)) = .some (w₂ ++ ']' :: r, l) := by
    refine sepRest_text (Q := NoSpecial) (K := Next c!",}]") (sep_strict ',') value__strict
      (word_punct (c := ',')) (fun pre t hc h => h.drop hc) ?_ ?_ ?_ ?_ h hn (.inl ?_) hq'
    · intro w₁ w₂ t h₁ h₂ ht; exact comma_ok h₁ h₂ ht
    · intro w t hw; exact .mk _ hw ',' t
    · intro a t r ha hr hq; exact ha.2 r hr hq
    · intro a t r ha; exact value_solid ha.1 r
    · exact comma_none (l := c!"]") (.mk _ hw₂ ']' r)
  unfold sepList0
  obtain ⟨j, a, as, h3, -, -, -⟩ := sepList1_some h1
  rw [h3]
  exact h1

theorem pair_good_eq {x : Ident × Value} {t r : Str} (h : PairGood x t) (hr : Next c!",}]" r)
    (hq : NoSpecial (t ++ r)) :
    separatedPair ident (delimited cos0 (char ':') cos0) value_ (t ++ r) = some (r, x) := by
  obtain ⟨w₁, w₂, u, hi, hw₁, hw₂, hv, hg, rfl⟩ := h
  have e : x.1 ++ (w₁ ++ ':' :: (w₂ ++ u)) ++ r = x.1 ++ (w₁ ++ ':' :: (w₂ ++ (u ++ r))) := by simp
  rw [e] at hq ⊢
  have hq' : NoSpecial (u ++ r) := by
    refine NoSpecial.drop (s := (x.1 ++ w₁) ++ ':' :: w₂) (by simpa using hq) ?_
    exact cut_append_cons _ word_punct (cut_trivia hw₂)
  exact pair_eq (ident_eq hi (Follow.trivia hw₁ ':').delim.stops) (preceded_eq
    (delimited_eq (cos0_skip hw₁ (solid_cons (by decide) (by decide))) (char_eq _ _) (cos0_skip hw₂ (value_solid hv r)))
    (hg r hr hq'))

theorem pair_strict' : Strict (separatedPair ident (delimited cos0 (char ':') cos0) value_) :=
  pair_strict_left ident_strict (preceded_consumes (sep_strict _).consumes value__strict.consumes)

theorem objectBody_eq {l : List (Ident × Value)} {d : Comment} {dt w₁ w₂ t r : Str} (hd : DocText d dt)
    (hw₁ : Trivia w₁) (hw₂ : Trivia w₂) (h : SepText ',' PairGood l t)
    (hq : NoSpecial (dt ++ '{' :: (w₁ ++ (t ++ (w₂ ++ '}' :: r))))) :
    object (dt ++ '{' :: (w₁ ++ (t ++ (w₂ ++ '}' :: r)))) = some (r, (d, l)) := by
  have hs : Solid ('}' :: r) := solid_cons (by decide) (by decide)
  have hn : Next c!",}]" (w₂ ++ '}' :: r) := .mk _ hw₂ '}' r
  have hq' : NoSpecial (t ++ (w₂ ++ '}' :: r)) :=
    NoSpecial.drop (s := dt ++ '{' :: w₁) (by simpa using hq) (cut_append_cons _ word_punct (cut_trivia hw₁))
  have hsol' : ∀ x t r, PairGood x t → Solid (t ++ r) := by
    rintro x t r ⟨_, _, _, hi, -, -, -, -, rfl⟩
    rw [List.append_assoc]
    exact (hi.tok _).solid
  have hsol : Solid (t ++ (w₂ ++ '}' :: r)) := by
    cases h with
    | one ha => exact hsol' _ _ _ ha
    | cons ha => rw [List.append_assoc]; exact hsol' _ _ _ ha
  refine pair_eq (docComment_eq hd (tok_cons _ _)) ?_
  refine delimited_eq (terminated_eq (char_eq _ _) (cos0_skip hw₁ hsol)) (k := w₂ ++ '}' :: r) ?_
    (preceded_eq (cos0_skip hw₂ hs) (char_eq _ _))
  have h1 : sepList1 (delimited cos0 (char ',') cos0) (separatedPair ident (delimited cos0 (char ':') cos0) value_)
      (t ++ (w₂ ++ '}' :: r)) = .some (w₂ ++ '}' :: r, l) := by
    refine sepRest_text (Q := NoSpecial) (K := Next c!",}]") (sep_strict ',') pair_strict'
      (word_punct (c := ',')) (fun pre t hc h => h.drop hc) ?_ ?_ ?_ ?_ h hn (.inl ?_) hq'
    · intro w₁ w₂ t h₁ h₂ ht; exact comma_ok h₁ h₂ ht
    · intro w t hw; exact .mk _ hw ',' t
    · intro a t r ha hr hq; exact pair_good_eq ha hr hq
    · intro a t r ha; exact hsol' a t r ha
    · exact comma_none (l := c!"}") (.mk _ hw₂ '}' r)
  unfold sepList0
  obtain ⟨j, a, as, h3, -, -, -⟩ := sepList1_some h1
  rw [h3]
  exact h1

theorem objectEmpty_eq {d : Comment} {dt w r : Str} (hd : DocText d dt) (hw : Trivia w) :
    object (dt ++ '{' :: (w ++ '}' :: r)) = some (r, (d, [])) := by
  have hs : Solid ('}' :: r) := solid_cons (by decide) (by decide)
  refine pair_eq (docComment_eq hd (tok_cons _ _)) ?_
  refine delimited_eq (terminated_eq (char_eq _ _) (cos0_skip hw hs)) (k := '}' :: r) ?_
    (preceded_eq (cos0_solid hs) (char_eq _ _))
  have : separatedPair ident (delimited cos0 (char ':') cos0) value_ ('}' :: r) = none :=
    pair_none_left (ident_none (identStart_punct _))
  unfold sepList0
  rw [this]

theorem object_none {c : Char} (r : Str) (h : c ∈ c!"[]") : object (c :: r) = none := by
  have hc : ∀ c ∈ c!"[]", c ≠ '/' ∧ isSpace c = false ∧ c ≠ '{' := by decide
  obtain ⟨h1, h2, h3⟩ := hc c h
  exact pair_none_right (docComment_punct c r h1 h2) (delimited_none_left (terminated_none_left (char_none h3)))

theorem value_brace (r : Str) (hq : NoSpecial (']' :: r)) : value_ (']' :: r) = none := by
  rw [value_unfold]
  have h1 : single (']' :: r) = none := by
    unfold single
    rw [alt_right (map_none (scalar_none (by decide) (by decide) (by decide) (by decide) ?_ ?_ hq))]
    · exact map_none (map_none (delimited_none_left (char_none (by decide))))
    · intro h; exact absurd (List.cons_prefix_cons.mp h).1 (by decide)
    · intro h; exact absurd (List.cons_prefix_cons.mp h).1 (by decide)
  rw [alt_right (map_none h1), alt_right (map_none (object_none r (by decide)))]
  exact map_none (delimited_none_left (terminated_none_left (char_none (by decide))))

theorem value_object {l : List (Ident × Value)} {d : Comment} {i r : Str} {c : Char} {s : Str} (e : i = c :: s)
    (hc : c = '/' ∨ c = '{') (hq : NoSpecial i) (h : object i = some (r, (d, l))) :
    value_ i = some (r, .object l d) := by
  rw [value_unfold, alt_right]
  · exact alt_left (map_eq h)
  · subst e
    exact map_none (single_none (by rcases hc with rfl | rfl <;> decide) hq)

theorem value_list {l : List Value} {i r : Str} {s : Str} (e : i = '[' :: s) (hq : NoSpecial i)
    (h : valueListOf value_ i = some (r, l)) : value_ i = some (r, .list l) := by
  rw [value_unfold, alt_right, alt_right]
  · exact map_eq h
  · subst e
    exact map_none (object_none _ (by decide))
  · subst e
    exact map_none (single_none (by decide) hq)

mutual

theorem value_eq' : ∀ {v : Value} {t : Str}, ValueText v t → ValueGood v t
  | _, _, .single h => by
    intro r hr hq
    rw [value_unfold]
    exact alt_left (map_eq (single_eq h hr.follow.delim hq))
  | _, t, .object h => by
    intro r _ hq
    have he := object_eq h hq
    have : ∃ c s, t ++ r = c :: s ∧ (c = '/' ∨ c = '{') := by
      cases h with
      | empty hd => rw [List.append_assoc]; exact docText_head hd _ _
      | some hd => rw [List.append_assoc]; exact docText_head hd _ _
    obtain ⟨c, s, e, hc⟩ := this
    exact value_object e hc hq he
  | _, _, .emptyList (w := w) hw => by
    intro r _ hq
    have e : '[' :: (w ++ [']']) ++ r = '[' :: (w ++ ']' :: r) := by simp
    rw [e] at hq ⊢
    refine value_list rfl hq ?_
    have hs : Solid (']' :: r) := solid_cons (by decide) (by decide)
    refine delimited_eq (terminated_eq (char_eq _ _) (cos0_skip hw hs)) (k := ']' :: r) ?_
      (preceded_eq (cos0_solid hs) (char_eq _ _))
    unfold sepList0
    rw [value_brace r (NoSpecial.drop (s := '[' :: w) (by simpa using hq) (cut_cons word_punct (cut_trivia hw)))]
  | _, _, .list (w₁ := w₁) (w₂ := w₂) (t := t) hw₁ h hw₂ => by
    intro r _ hq
    have e : '[' :: (w₁ ++ (t ++ (w₂ ++ [']']))) ++ r = '[' :: (w₁ ++ (t ++ (w₂ ++ ']' :: r))) := by simp
    rw [e] at hq ⊢
    exact value_list rfl hq (valueList_eq hw₁ hw₂ (values_good h) hq)

theorem object_eq : ∀ {l : List (Ident × Value)} {d : Comment} {t r : Str}, ObjectText l d t → NoSpecial (t ++ r) →
    object (t ++ r) = some (r, (d, l))
  | _, _, _, r, .empty (dt := dt) (w := w) hd hw, hq => by
    have e : dt ++ '{' :: (w ++ ['}']) ++ r = dt ++ '{' :: (w ++ '}' :: r) := by simp
    rw [e]
    exact objectEmpty_eq hd hw
  | _, _, _, r, .some (dt := dt) (w₁ := w₁) (w₂ := w₂) (t := t) hd hw₁ h hw₂, hq => by
    have e : dt ++ '{' :: (w₁ ++ (t ++ (w₂ ++ ['}']))) ++ r = dt ++ '{' :: (w₁ ++ (t ++ (w₂ ++ '}' :: r))) := by simp
    rw [e] at hq ⊢
    exact objectBody_eq hd hw₁ hw₂ (pairs_good h) hq

theorem values_good : ∀ {l : List Value} {t : Str}, ValuesText l t →
    SepText ',' (fun v t => ValueText v t ∧ ValueGood v t) l t
  | _, _, .one h => .one ⟨h, value_eq' h⟩
  | _, _, .cons h hw₁ hw₂ hs => .cons ⟨h, value_eq' h⟩ hw₁ hw₂ (values_good hs)

theorem pairs_good : ∀ {l : List (Ident × Value)} {t : Str}, PairsText l t → SepText ',' PairGood l t
  | _, _, .one hk hw₁ hw₂ hv => .one ⟨_, _, _, hk, hw₁, hw₂, hv, value_eq' hv, rfl⟩
  | _, _, .cons hk hv₁ hv₂ hv hw₁ hw₂ hs =>
    .cons ⟨_, _, _, hk, hv₁, hv₂, hv, value_eq' hv, rfl⟩ hw₁ hw₂ (pairs_good hs)

end

/-! ### Telling declarations apart -/

omit [Env] in
theorem tag_other {k kw s : Str} (h1 : ¬ k <+: kw) (h2 : ¬ kw <+: k) : tag k (kw ++ s) = none := by
  refine tag_none (fun h => ?_)
  rcases List.prefix_or_prefix_of_prefix h (List.prefix_append kw s) with h | h
  · exact h1 h
  · exact h2 h

/-- The text begins with documentation and the given keyword. -/
def Headed (kw t : Str) : Prop := ∃ d dt s, DocText d dt ∧ t = dt ++ (kw ++ s)

omit [Env] in
theorem Headed.append {kw t : Str} (h : Headed kw t) (r : Str) : Headed kw (t ++ r) := by
  obtain ⟨d, dt, s, hd, rfl⟩ := h
  exact ⟨d, dt, s ++ r, hd, by simp⟩

omit [Env] in
theorem Headed.solid {kw t : Str} (h : Headed kw t) (hk : Tok kw) : Solid t := by
  obtain ⟨d, dt, s, hd, rfl⟩ := h
  exact docText_solid hd (hk.append _).solid

omit [Env] in
theorem Headed.doc_none {α β : Type} {kw t : Str} (h : Headed kw t) (hk : Tok kw) {f : Comment × α → β} {p : P α}
    (hp : ∀ s, p (kw ++ s) = none) : map (pair docComment p) f t = none := by
  obtain ⟨d, dt, s, hd, rfl⟩ := h
  exact map_none (pair_none_right (docComment_eq hd (hk.append _)) (hp s))

omit [Env] in
theorem Headed.keyword_none {α : Type} {kw k t : Str} (h : Headed kw t) (hk : Tok kw) (h1 : ¬ k <+: kw)
    (h2 : ¬ kw <+: k) (p : P α) : keywordDecl k p t = none := by
  obtain ⟨d, dt, s, hd, rfl⟩ := h
  exact pair_none_right (docComment_eq hd (hk.append _)) (delimited_none_left (tag_other h1 h2))

theorem Headed.namespace_none {kw t : Str} (h : Headed kw t) (hk : Tok kw) (h1 : ¬ c!"namespace" <+: kw)
    (h2 : ¬ kw <+: c!"namespace") : namespaceDecl t = none := h.keyword_none hk h1 h2 _

theorem Headed.product_none {kw k t : Str} (h : Headed kw t) (hk : Tok kw) (h1 : ¬ k <+: kw) (h2 : ¬ kw <+: k) :
    productDecl k t = none := h.doc_none hk (fun _ => preceded_none_left (tag_other h1 h2))

theorem Headed.enum_none {kw t : Str} (h : Headed kw t) (hk : Tok kw) (h1 : ¬ c!"enum" <+: kw)
    (h2 : ¬ kw <+: c!"enum") : enumDecl t = none :=
  h.doc_none hk (fun _ => pair_none_left (preceded_none_left (tag_other h1 h2)))

theorem Headed.union_none {kw t : Str} (h : Headed kw t) (hk : Tok kw) (h1 : ¬ c!"union" <+: kw)
    (h2 : ¬ kw <+: c!"union") : unionDecl t = none :=
  h.doc_none hk (fun _ => pair_none_left (preceded_none_left (tag_other h1 h2)))

theorem Headed.root_none {kw t : Str} (h : Headed kw t) (hk : Tok kw) (h1 : ¬ c!"root_type" <+: kw)
    (h2 : ¬ kw <+: c!"root_type") : rootDecl t = none := h.keyword_none hk h1 h2 _

omit [Env] in
theorem Headed.extension_none {kw t : Str} (h : Headed kw t) (hk : Tok kw) (h1 : ¬ c!"file_extension" <+: kw)
    (h2 : ¬ kw <+: c!"file_extension") : fileExtensionDecl t = none := h.keyword_none hk h1 h2 _

omit [Env] in
theorem Headed.identifier_none {kw t : Str} (h : Headed kw t) (hk : Tok kw) (h1 : ¬ c!"file_identifier" <+: kw)
    (h2 : ¬ kw <+: c!"file_identifier") : fileIdentifierDecl t = none := mapRes_none (h.keyword_none hk h1 h2 _)

theorem Headed.attribute_none {kw t : Str} (h : Headed kw t) (hk : Tok kw) (h1 : ¬ c!"attribute" <+: kw)
    (h2 : ¬ kw <+: c!"attribute") : attributeDecl t = none := h.keyword_none hk h1 h2 _

theorem Headed.rpc_none {kw t : Str} (h : Headed kw t) (hk : Tok kw) (h1 : ¬ c!"rpc_service" <+: kw)
    (h2 : ¬ kw <+: c!"rpc_service") : rpcDecl t = none :=
  h.doc_none hk (fun _ => pair_none_left (preceded_none_left (terminated_none_left (tag_other h1 h2))))

theorem Headed.include_none {kw t : Str} (h : Headed kw t) (hk : Tok kw) (h1 : ¬ c!"include" <+: kw)
    (h2 : ¬ kw <+: c!"include") : includeDecl t = none := mapRes_none (h.keyword_none hk h1 h2 _)

omit [Env] in
theorem KeywordText.headed {kw : Str} {gap : Bool} {d : Comment} {s t : Str} (h : KeywordText kw gap d s t) :
    Headed kw t := by
  cases h with
  | mk hd => exact ⟨_, _, _, hd, rfl⟩

theorem ProductText.headed {kw : Str} {p : Product} {t : Str} (h : ProductText kw p t) : Headed kw t := by
  cases h with
  | mk hd => exact ⟨_, _, _, hd, rfl⟩

theorem EnumText.headed {e : Enum} {t : Str} (h : EnumText e t) : Headed c!"enum" t := by
  cases h with
  | mk hd => exact ⟨_, _, _, hd, rfl⟩

theorem UnionText.headed {u : Union} {t : Str} (h : UnionText u t) : Headed c!"union" t := by
  cases h with
  | mk hd => exact ⟨_, _, _, hd, rfl⟩

theorem RpcText.headed {r : Rpc} {t : Str} (h : RpcText r t) : Headed c!"rpc_service" t := by
  cases h with
  | mk hd => exact ⟨_, _, _, hd, rfl⟩

theorem objectText_headed {l : List (Ident × Value)} {d : Comment} {t : Str} (h : ObjectText l d t) :
    Headed c!"{" t := by
  cases h with
  | empty hd => exact ⟨_, _, _, hd, rfl⟩
  | some hd => exact ⟨_, _, _, hd, rfl⟩

/-- The keywords of declarations, and the brace of objects. -/
def keywords : List Str :=
  [c!"namespace", c!"table", c!"struct", c!"enum", c!"union", c!"root_type", c!"file_extension", c!"file_identifier",
   c!"attribute", c!"rpc_service", c!"{"]

omit [Env] in
theorem keywords_tok {k : Str} (h : k ∈ keywords) : Tok k := by
  simp only [keywords, List.mem_cons, List.not_mem_nil, or_false] at h
  rcases h with rfl | rfl | rfl | rfl | rfl | rfl | rfl | rfl | rfl | rfl | rfl <;> exact tok_cons _ _

theorem element_headed {e : Element} {t : Str} (h : ElementText e t) : ∃ kw ∈ keywords, Headed kw t := by
  cases h with
  | «namespace» _ h => exact ⟨_, by decide, h.headed⟩
  | table h => exact ⟨_, by decide, h.headed⟩
  | struct h => exact ⟨_, by decide, h.headed⟩
  | enum h => exact ⟨_, by decide, h.headed⟩
  | union h => exact ⟨_, by decide, h.headed⟩
  | root _ h => exact ⟨_, by decide, h.headed⟩
  | fileExtension _ h => exact ⟨_, by decide, h.headed⟩
  | fileIdentifier _ h => exact ⟨_, by decide, h.headed⟩
  | «attribute» _ h => exact ⟨_, by decide, h.headed⟩
  | rpc h => exact ⟨_, by decide, h.headed⟩
  | object h => exact ⟨_, by decide, objectText_headed h⟩

omit [Env] in
theorem keywordText_cut [Env] {kw : Str} {gap : Bool} {d : Comment} {s t : Str} (h : KeywordText kw gap d s t) : Cut t := by
  cases h with
  | @mk dt w₁ w₂ => have := cut_end (dt ++ (kw ++ (w₁ ++ (s ++ w₂)))) ';'; simpa using this

theorem product_cut {kw : Str} {p : Product} {t : Str} (h : ProductText kw p t) : Cut t := by
  cases h with
  | @mk d w₁ w₂ m w₃ w₄ fs =>
    have := cut_end (d ++ (kw ++ (w₁ ++ (p.id ++ (w₂ ++ (m ++ (w₃ ++ '{' :: (w₄ ++ fs)))))))) '}'
    simpa using this

theorem element_cut {e : Element} {t : Str} (h : ElementText e t) : Cut t := by
  cases h with
  | «namespace» _ h => exact keywordText_cut h
  | table h => exact product_cut h
  | struct h => exact product_cut h
  | @enum e t h =>
    cases h with
    | @mk d w₁ w₂ w₃ ty m b _ _ _ _ _ _ _ _ hb =>
      have := (cut_append_cons (c := ':') (d ++ (c!"enum" ++ (w₁ ++ (e.id ++ w₂)))) (t := w₃ ++ (ty ++ (m ++ b)))
        word_punct ?_)
      · simpa using this
      · obtain ⟨⟨w, s, hw, rfl⟩, hc⟩ := bodyText_open hb
        intro c hc'
        have e : w₃ ++ (ty ++ (m ++ (w ++ '{' :: s))) = (w₃ ++ (ty ++ m)) ++ (w ++ '{' :: s) := by simp
        rw [e, List.getLast?_append] at hc'
        cases e2 : (w ++ '{' :: s).getLast? with
        | none => simp at e2
        | some x => rw [e2] at hc'; cases hc'; exact hc _ e2
  | @union u t h =>
    cases h with
    | @mk d w₁ w₂ m b _ _ _ _ _ _ hb =>
      obtain ⟨⟨w, s, hw, rfl⟩, hc⟩ := bodyText_open hb
      intro c hc'
      have e : d ++ (c!"union" ++ (w₁ ++ (u.id ++ (w₂ ++ (m ++ (w ++ '{' :: s)))))) =
        (d ++ (c!"union" ++ (w₁ ++ (u.id ++ (w₂ ++ m))))) ++ (w ++ '{' :: s) := by simp
      rw [e, List.getLast?_append] at hc'
      cases e2 : (w ++ '{' :: s).getLast? with
      | none => simp at e2
      | some x => rw [e2] at hc'; cases hc'; exact hc _ e2
  | root _ h => exact keywordText_cut h
  | fileExtension _ h => exact keywordText_cut h
  | fileIdentifier _ h => exact keywordText_cut h
  | «attribute» _ h => exact keywordText_cut h
  | @rpc r t h =>
    cases h with
    | @mk d w₁ w₂ w₃ ms =>
      have := cut_end (d ++ (c!"rpc_service" ++ (w₁ ++ (r.id ++ (w₂ ++ '{' :: (w₃ ++ ms)))))) '}'
      simpa using this
  | object h =>
    cases h with
    | @empty _ dt w => have := cut_end (dt ++ '{' :: w) '}'; simpa using this
    | @some _ _ dt w₁ w₂ t => have := cut_end (dt ++ '{' :: (w₁ ++ (t ++ w₂))) '}'; simpa using this

/-- The rule for the kind of the declaration reads it, for the kinds that contain values. -/
def Picked (t r : Str) : Element → Prop
  | .table p => productDecl c!"table" (t ++ r) = some (r, p)
  | .struct p => productDecl c!"struct" (t ++ r) = some (r, p)
  | .enum e => enumDecl (t ++ r) = some (r, e)
  | .union u => unionDecl (t ++ r) = some (r, u)
  | .rpc m => rpcDecl (t ++ r) = some (r, m)
  | .object l d => object (t ++ r) = some (r, (d, l))
  | _ => True

/-- No other rule reads a declaration. -/
theorem element_pick {e : Element} {t r : Str} (h : ElementText e t) (hp : Picked t r e) :
    element (t ++ r) = some (r, e) := by
  unfold element
  cases h with
  | «namespace» hi h => exact alt_left (map_eq (namespaceDecl_eq hi h))
  | table h =>
    have hh := h.headed.append r
    have hk : Tok c!"table" := tok_cons _ _
    rw [alt_right (map_none (hh.namespace_none hk (by decide) (by decide)))]
    exact alt_left (map_eq hp)
  | struct h =>
    have hh := h.headed.append r
    have hk : Tok c!"struct" := tok_cons _ _
    rw [alt_right (map_none (hh.namespace_none hk (by decide) (by decide))),
      alt_right (map_none (hh.product_none hk (by decide) (by decide)))]
    exact alt_left (map_eq hp)
  | enum h =>
    have hh := h.headed.append r
    have hk : Tok c!"enum" := tok_cons _ _
    rw [alt_right (map_none (hh.namespace_none hk (by decide) (by decide))),
      alt_right (map_none (hh.product_none hk (by decide) (by decide))),
      alt_right (map_none (hh.product_none hk (by decide) (by decide)))]
    exact alt_left (map_eq hp)
  | union h =>
    have hh := h.headed.append r
    have hk : Tok c!"union" := tok_cons _ _
    rw [alt_right (map_none (hh.namespace_none hk (by decide) (by decide))),
      alt_right (map_none (hh.product_none hk (by decide) (by decide))),
      alt_right (map_none (hh.product_none hk (by decide) (by decide))),
      alt_right (map_none (hh.enum_none hk (by decide) (by decide)))]
    exact alt_left (map_eq hp)
  | root hi h =>
    have hh := h.headed.append r
    have hk : Tok c!"root_type" := tok_cons _ _
    rw [alt_right (map_none (hh.namespace_none hk (by decide) (by decide))),
      alt_right (map_none (hh.product_none hk (by decide) (by decide))),
      alt_right (map_none (hh.product_none hk (by decide) (by decide))),
      alt_right (map_none (hh.enum_none hk (by decide) (by decide))),
      alt_right (map_none (hh.union_none hk (by decide) (by decide)))]
    exact alt_left (map_eq (rootDecl_eq hi h))
  | fileExtension hi h =>
    have hh := h.headed.append r
    have hk : Tok c!"file_extension" := tok_cons _ _
    rw [alt_right (map_none (hh.namespace_none hk (by decide) (by decide))),
      alt_right (map_none (hh.product_none hk (by decide) (by decide))),
      alt_right (map_none (hh.product_none hk (by decide) (by decide))),
      alt_right (map_none (hh.enum_none hk (by decide) (by decide))),
      alt_right (map_none (hh.union_none hk (by decide) (by decide))),
      alt_right (map_none (hh.root_none hk (by decide) (by decide)))]
    exact alt_left (map_eq (fileExtensionDecl_eq hi h))
  | fileIdentifier hi h =>
    have hh := h.headed.append r
    have hk : Tok c!"file_identifier" := tok_cons _ _
    rw [alt_right (map_none (hh.namespace_none hk (by decide) (by decide))),
      alt_right (map_none (hh.product_none hk (by decide) (by decide))),
      alt_right (map_none (hh.product_none hk (by decide) (by decide))),
      alt_right (map_none (hh.enum_none hk (by decide) (by decide))),
      alt_right (map_none (hh.union_none hk (by decide) (by decide))),
      alt_right (map_none (hh.root_none hk (by decide) (by decide))),
      alt_right (map_none (hh.extension_none hk (by decide) (by decide)))]
    exact alt_left (map_eq (fileIdentifierDecl_eq hi h))
  | «attribute» hi h =>
    have hh := h.headed.append r
    have hk : Tok c!"attribute" := tok_cons _ _
    rw [alt_right (map_none (hh.namespace_none hk (by decide) (by decide))),
      alt_right (map_none (hh.product_none hk (by decide) (by decide))),
      alt_right (map_none (hh.product_none hk (by decide) (by decide))),
      alt_right (map_none (hh.enum_none hk (by decide) (by decide))),
      alt_right (map_none (hh.union_none hk (by decide) (by decide))),
      alt_right (map_none (hh.root_none hk (by decide) (by decide))),
      alt_right (map_none (hh.extension_none hk (by decide) (by decide))),
      alt_right (map_none (hh.identifier_none hk (by decide) (by decide)))]
    exact alt_left (map_eq (attributeDecl_eq hi h))
  | rpc h =>
    have hh := h.headed.append r
    have hk : Tok c!"rpc_service" := tok_cons _ _
    rw [alt_right (map_none (hh.namespace_none hk (by decide) (by decide))),
      alt_right (map_none (hh.product_none hk (by decide) (by decide))),
      alt_right (map_none (hh.product_none hk (by decide) (by decide))),
      alt_right (map_none (hh.enum_none hk (by decide) (by decide))),
      alt_right (map_none (hh.union_none hk (by decide) (by decide))),
      alt_right (map_none (hh.root_none hk (by decide) (by decide))),
      alt_right (map_none (hh.extension_none hk (by decide) (by decide))),
      alt_right (map_none (hh.identifier_none hk (by decide) (by decide))),
      alt_right (map_none (hh.attribute_none hk (by decide) (by decide)))]
    exact alt_left (map_eq hp)
  | object h =>
    have hh := (objectText_headed h).append r
    have hk : Tok c!"{" := tok_cons _ _
    rw [alt_right (map_none (hh.namespace_none hk (by decide) (by decide))),
      alt_right (map_none (hh.product_none hk (by decide) (by decide))),
      alt_right (map_none (hh.product_none hk (by decide) (by decide))),
      alt_right (map_none (hh.enum_none hk (by decide) (by decide))),
      alt_right (map_none (hh.union_none hk (by decide) (by decide))),
      alt_right (map_none (hh.root_none hk (by decide) (by decide))),
      alt_right (map_none (hh.extension_none hk (by decide) (by decide))),
      alt_right (map_none (hh.identifier_none hk (by decide) (by decide))),
      alt_right (map_none (hh.attribute_none hk (by decide) (by decide))),
      alt_right (map_none (hh.rpc_none hk (by decide) (by decide)))]
    exact map_eq hp

/-- A declaration is read whole, whatever follows. -/
theorem element_eq {e : Element} {t r : Str} (h : ElementText e t) (hv : NamesElement e) (hq : NoSpecial (t ++ r)) :
    element (t ++ r) = some (r, e) := by
  refine element_pick h ?_
  cases h with
  | table h => exact productDecl_eq (tok_cons _ _) h hv hq
  | struct h => exact productDecl_eq (tok_cons _ _) h hv hq
  | enum h => exact enumDecl_eq h hq
  | union h => exact unionDecl_eq h hq
  | rpc h => exact rpcDecl_eq h hq
  | object h => exact object_eq h hq
  | _ => exact trivial

/-! ### Schemas -/

theorem element_solid {e : Element} {t : Str} (h : ElementText e t) (r : Str) : Solid (t ++ r) := by
  obtain ⟨kw, hk, hh⟩ := element_headed h
  exact (hh.append r).solid (keywords_tok hk)

theorem include_solid {i : Include} {t : Str} (h : IncludeText i t) (r : Str) : Solid (t ++ r) := by
  cases h with
  | mk hs hst hk => exact (hk.headed.append r).solid (tok_cons _ _)

theorem include_cut {i : Include} {t : Str} (h : IncludeText i t) : Cut t := by
  cases h with
  | mk hs hst hk => exact keywordText_cut hk

omit [Env] in
theorem keywords_include {k : Str} (h : k ∈ keywords) : ¬ c!"include" <+: k ∧ ¬ k <+: c!"include" := by
  revert k
  decide

theorem element_nil : element [] = none := rfl
theorem includeDecl_nil : includeDecl [] = none := rfl

omit [Env] in
theorem spaced_nil {p : P α} (h : p [] = none) : delimited cos0 p cos0 [] = none :=
  delimited_none_mid (a := ()) (j := []) rfl h

/-- Every way of writing a schema is read back, unless the text contains `nan`, `inf` or `infinity`. -/
theorem schemaDecl_eq {s : Schema} {t : Str} (h : SchemaText s t) (hv : NamesSchema s) (hq : NoSpecial t) :
    schemaDecl t = some ([], s) := by
  cases h with
  | empty => rfl
  | @mk _ w is es le hne hw his hes hl =>
    have hlast : cos0 le = some ([], ()) := cos0_last hl
    -- reading the declarations
    have hels : ∀ w', Trivia w' → NoSpecial (w' ++ (es ++ le)) → s.elements ≠ [] →
        many0 (delimited cos0 element cos0) (w' ++ (es ++ le)) = some ([], s.elements) := by
      intro w' hw' hq' hne'
      have := many0_text (Q := NoSpecial) element_strict (fun pre t hc h => NoSpecial.drop h hc) (fun _ _ _ h hq => element_eq h.1 h.2 hq)
        (fun _ _ r h => element_solid h.1 r) (fun _ _ h => element_cut h.1) (hes.and hv) hw' hlast
        (delimited_none_mid hlast element_nil) (spaced_nil element_nil) (fun h => absurd h hne') hq'
      rw [this, if_neg hne']
    -- no include begins at a declaration
    have hinc : ∀ w', Trivia w' → delimited cos0 includeDecl cos0 (w' ++ (es ++ le)) = none := by
      intro w' hw'
      clear hels
      generalize s.elements = l at hes
      cases hes with
      | nil =>
        refine delimited_none_mid (j := []) (a := ()) ?_ includeDecl_nil
        rw [cos0_trivia hw', List.nil_append, hlast]
      | cons he =>
        refine delimited_none_mid (cos0_skip hw' ?_) ?_
        · rw [List.append_assoc]; exact element_solid he _
        · obtain ⟨kw, hk, hh⟩ := element_headed he
          rw [List.append_assoc]
          exact (hh.append _).include_none (keywords_tok hk) (keywords_include hk).1 (keywords_include hk).2
    by_cases hi : s.includes = []
    · have hne' : s.elements ≠ [] := by
        rcases hne with h | h
        · exact absurd hi h
        · exact h
      have : is = [] := by rw [hi] at his; cases his; rfl
      subst this
      rw [List.nil_append] at hq ⊢
      have h1 : many0 (delimited cos0 includeDecl cos0) (w ++ (es ++ le)) = some (w ++ (es ++ le), []) := by
        rw [many0_eq (spaced_strict includeDecl_strict).consumes, hinc w hw]
      have := map_eq (f := fun x : List Include × List Element => ({ includes := x.1, elements := x.2 } : Schema))
        (pair_eq h1 (hels w hw hq hne'))
      unfold schemaDecl
      rw [this]
      cases s
      simp only at hi
      rw [hi]
    · have hq' : NoSpecial (es ++ le) := by
        have hcut : ∀ (l : List Include) t, ManyText IncludeText l t → Cut t := by
          intro l t h
          induction h with
          | nil => exact cut_nil
          | cons ha hw _ ih => exact (include_cut ha).append ((cut_trivia hw).append ih)
        refine NoSpecial.drop (s := w ++ is) (by simpa using hq) ((cut_trivia hw).append (hcut _ _ his))
      have hr : ∃ r', cos0 (es ++ le) = some (r', ()) ∧
          delimited cos0 includeDecl cos0 r' = none ∧
          many0 (delimited cos0 element cos0) r' = some ([], s.elements) := by
        by_cases hel : s.elements = []
        · rw [hel] at hes
          cases hes
          refine ⟨[], hlast, spaced_nil includeDecl_nil, ?_⟩
          rw [many0_eq (spaced_strict element_strict).consumes, spaced_nil element_nil, hel]
        · refine ⟨es ++ le, ?_, by simpa using hinc [] .nil, by simpa using hels [] .nil (by simpa using hq') hel⟩
          generalize hx : s.elements = l at hes hel
          cases hes with
          | nil => exact absurd rfl hel
          | cons he => rw [List.append_assoc]; exact cos0_solid (element_solid he _)
      obtain ⟨r', h1, h2, h3⟩ := hr
      have h4 := many0_text (Q := NoSpecial) includeDecl_strict (fun pre t hc h => NoSpecial.drop h hc)
        (fun _ _ _ h _ => includeDecl_eq h) (fun _ _ r h => include_solid h r) (fun _ _ h => include_cut h) his hw h1
        (by simpa using hinc [] .nil) h2 (fun h => absurd h hi) hq
      rw [if_neg hi] at h4
      exact map_eq (pair_eq h4 h3)

end Butte.Parse
