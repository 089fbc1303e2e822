import Verif.Parse.Reprint
/-
The words that the parser looks for in everything that follows a value, and how they carry over from a text to the
printed text of what was read from it.
-/
namespace Butte.Parse

open Ast

variable {α β γ : Type} [Env]

/-- The word occurs in the text, not as a part of a longer word. -/
def Occ (w t : Str) : Prop :=
  ∃ a b : Str, t = a ++ (w ++ b) ∧ (∀ c, a.getLast? = some c → Env.word c = false) ∧
    (∀ c, b.head? = some c → Env.word c = false)

/-- No word continues here. -/
def Stop (r : Str) : Prop := ∀ c, r.head? = some c → Env.word c = false

omit [Env] in
/-- The words that are looked for. -/
def magic : List Str := [c!"nan", c!"inf", c!"infinity", c!"true", c!"false"]

/-- Every one of the words that occurs in the second text occurs in the first. -/
def W (i i' : Str) : Prop := ∀ w ∈ magic, Occ w i' → Occ w i

omit [Env] in
theorem magic_alnum : ∀ w ∈ magic, ∀ c ∈ w, c.toNat < 128 ∧ c.isAlphanum = true := by decide

omit [Env] in
theorem magic_ne : ∀ w ∈ magic, w ≠ [] := by decide

omit [Env] in
theorem magic_first : ∀ w ∈ magic, ∃ c s, w = c :: s ∧ c ∈ c!"nitf" := by
  intro w hw
  simp only [magic, List.mem_cons, List.not_mem_nil, or_false] at hw
  rcases hw with rfl | rfl | rfl | rfl | rfl <;> exact ⟨_, _, rfl, by decide⟩

theorem magic_word {w : Str} (hw : w ∈ magic) {c : Char} (hc : c ∈ w) : Env.word c = true := by
  have := magic_alnum w hw c hc
  rw [Env.word_ascii _ this.1, this.2]
  rfl

theorem hasWord_iff {w t : Str} (hw : w ∈ magic) : hasWord w t = true ↔ Occ w t := by
  constructor
  · intro h
    obtain ⟨a, b, e, -, h2, h3⟩ := hasWordFrom_spec _ _ h
    exact ⟨a, b, e, h2, h3⟩
  · rintro ⟨a, b, rfl, h1, h2⟩
    exact hasWordFrom_of (magic_ne w hw) h2 a false (fun _ => rfl) h1

theorem W.special {i i' : Str} (h : W i i') (hi : NoSpecial i) : NoSpecial i' := by
  by_contra hn
  obtain ⟨w, hw, a, b, e, h1, h2⟩ := hasSpecial_iff.mpr hn
  have hw' : w ∈ magic := by
    simp only [magic, List.mem_cons, List.not_mem_nil, or_false] at hw ⊢
    tauto
  obtain ⟨a, b, e, h1, h2⟩ := h w hw' ⟨a, b, e, h1, h2⟩
  exact hasSpecial_iff.mp ⟨w, hw, a, b, e, h1, h2⟩ hi

theorem W.refl (i : Str) : W i i := fun _ _ h => h

theorem Occ.skip {w r s : Str} (h : Occ w r) (hs : Cut s) : Occ w (s ++ r) := by
  obtain ⟨a, b, rfl, h1, h2⟩ := h
  refine ⟨s ++ a, b, by simp, fun c hc => ?_, h2⟩
  rw [List.getLast?_append] at hc
  cases ha : a.getLast? with
  | none => rw [ha] at hc; exact hs c hc
  | some d => rw [ha] at hc; cases hc; exact h1 _ ha

theorem Occ.skipStop {w r : Str} (hw : w ∈ magic) (h : Occ w r) (hr : Stop r) (s : Str) : Occ w (s ++ r) := by
  obtain ⟨a, b, rfl, h1, h2⟩ := h
  cases a with
  | nil =>
    obtain ⟨c, u, e, -⟩ := magic_first w hw
    have := hr c (by rw [e]; rfl)
    rw [magic_word hw (by rw [e]; exact List.mem_cons_self)] at this
    cases this
  | cons d a =>
    refine ⟨s ++ d :: a, b, by simp, fun c hc => ?_, h2⟩
    rw [List.getLast?_append] at hc
    have : (d :: a).getLast?.isSome := by simp
    obtain ⟨x, hx⟩ := Option.isSome_iff_exists.mp this
    rw [hx] at hc
    cases hc
    exact h1 _ hx

theorem Occ.split {w k r : Str} (hw : w ∈ magic) (hr : Stop r) (h : Occ w (k ++ r)) : Occ w k ∨ Occ w r := by
  obtain ⟨a, b, e, h1, h2⟩ := h
  rcases List.append_eq_append_iff.mp e with ⟨a', rfl, rfl⟩ | ⟨c', rfl, e'⟩
  · right
    refine ⟨a', b, rfl, fun c hc => h1 c ?_, h2⟩
    rw [List.getLast?_append, hc]
    rfl
  · left
    rcases List.append_eq_append_iff.mp e' with ⟨d, rfl, rfl⟩ | ⟨d, hd, rfl⟩
    · refine ⟨a, d, rfl, h1, fun c hc => h2 c ?_⟩
      cases d with
      | nil => cases hc
      | cons x d => exact hc
    · cases d with
      | nil =>
        rw [List.append_nil] at hd
        subst hd
        exact ⟨a, [], by simp, h1, fun c hc => by cases hc⟩
      | cons x d =>
        have := hr x rfl
        rw [magic_word hw (c := x) (by rw [hd]; simp)] at this
        cases this

theorem Occ.extend {w k r : Str} (h : Occ w k) (hr : Stop r) : Occ w (k ++ r) := by
  obtain ⟨a, b, rfl, h1, h2⟩ := h
  refine ⟨a, b ++ r, by simp, h1, fun c hc => ?_⟩
  cases b with
  | nil => exact hr c hc
  | cons d b => exact h2 c hc

/-- The same piece of text in front of both. -/
theorem W.text (k : Str) {r r' : Str} (hr : Stop r) (hr' : Stop r') (h : W r r') : W (k ++ r) (k ++ r') := by
  intro w hw ho
  rcases ho.split hw hr' with h1 | h1
  · exact h1.extend hr
  · exact (h w hw h1).skipStop hw hr k

/-- A piece without any of the words in front of the second text. -/
theorem W.other (k : Str) {k' r r' : Str} (hk : ∀ c ∈ k', c ∉ c!"nitf") (hr : Stop r) (hr' : Stop r') (h : W r r') :
    W (k ++ r) (k' ++ r') := by
  intro w hw ho
  rcases ho.split hw hr' with ⟨a, b, rfl, -, -⟩ | h1
  · obtain ⟨c, s, rfl, hc⟩ := magic_first w hw
    exact absurd hc (hk c (by simp))
  · exact (h w hw h1).skipStop hw hr k

theorem W.skip {s r r' : Str} (hs : Cut s) (h : W r r') : W (s ++ r) r' := fun w hw ho => (h w hw ho).skip hs

theorem W.trivia {s r r' : Str} (hs : Trivia s) (h : W r r') : W (s ++ r) r' := h.skip (cut_trivia hs)

theorem stop_cons {c : Char} (t : Str) (h : Env.word c = false) : Stop (c :: t) := by
  intro d hd; cases hd; exact h

theorem stop_nil : Stop [] := by intro d hd; cases hd

theorem Follow.stop {r : Str} (h : Follow r) : Stop r := follow_word h

theorem stop_punct (c : Char) (t : Str) (h : c ∈ c!"=();{}[],:." := by decide) : Stop (c :: t) :=
  stop_cons t (word_punct h)

/-- Another character in front of the second text. -/
theorem W.insert {c : Char} {r r' : Str} (hc : Env.word c = false) (h : W r r') : W r (c :: r') := by
  intro w hw ho
  obtain ⟨a, b, e, h1, h2⟩ := ho
  refine h w hw ?_
  cases a with
  | nil =>
    obtain ⟨d, s, rfl, -⟩ := magic_first w hw
    have e := (List.cons.inj e).1
    rw [e, magic_word hw List.mem_cons_self] at hc
    cases hc
  | cons d a =>
    obtain ⟨rfl, rfl⟩ := List.cons.inj e
    refine ⟨a, b, rfl, fun x hx => h1 x ?_, h2⟩
    cases a with
    | nil => cases hx
    | cons y a => rw [List.getLast?_cons_cons]; exact hx

theorem W.cons {c : Char} {r r' : Str} (hc : Env.word c = false) (h : W r r') : W (c :: r) (c :: r') :=
  W.skip (s := [c]) (cut_snoc [] hc) (h.insert hc)

theorem W.punct (c : Char) {r r' : Str} (h : W r r') (hc : c ∈ c!"=();{}[],:." := by decide) : W (c :: r) (c :: r') :=
  W.cons (word_punct hc) h

theorem word_ascii' (c : Char) (h : c ∈ c!" \t\r\n/\"=();{}[],:." := by decide) : Env.word c = false := by
  have : c.toNat < 128 ∧ (c.isAlphanum || c == '_') = false := by revert h; revert c; decide
  rw [Env.word_ascii _ this.1, this.2]

/-! ### Pieces of a schema in which nothing is looked for -/

theorem doc_W {d : Comment} {t : Str} (h : DocText d t) {r r' : Str} (hw : W r r') : W (t ++ r) (printDoc d ++ r') := by
  induction h with
  | nil => exact hw
  | @cons l nl w t d hl hn hwt _ ih =>
    have e : '/' :: '/' :: '/' :: (l ++ (nl ++ (w ++ t))) ++ r = '/' :: '/' :: '/' :: (l ++ (nl ++ (w ++ (t ++ r)))) := by
      simp
    have e' : printDoc (l :: d) ++ r' = '/' :: '/' :: '/' :: (l ++ '\n' :: (printDoc d ++ r')) := by simp [printDoc]
    rw [e, e']
    have hs := word_ascii' '/'
    have hnl := word_ascii' '\n'
    refine W.cons hs (W.cons hs (W.cons hs (W.text l ?_ (stop_cons _ hnl) ?_)))
    · rcases hn with rfl | rfl
      · exact stop_cons _ hnl
      · exact stop_cons _ (word_ascii' '\r')
    · have hx : W (w ++ (t ++ r)) (printDoc d ++ r') := ih.trivia hwt
      rcases hn with rfl | rfl
      · exact W.cons hnl hx
      · exact W.skip (s := ['\r']) (cut_snoc [] (word_ascii' '\r')) (W.cons hnl hx)

omit [Env] in
/-- The items after the first, each with its separator. -/
def sepTail (c : Char) : List Str → Str → Str
  | [], r => r
  | s :: l, r => c :: (s ++ sepTail c l r)

omit [Env] in
theorem join_tail (c : Char) (s : Str) (l : List Str) (r : Str) :
    joinWith c (s :: l) ++ r = s ++ sepTail c l r := by
  induction l generalizing s with
  | nil => rfl
  | cons a l ih => simp only [joinWith, List.append_assoc, List.cons_append, ih, sepTail]

/-- Items with separators, in the text read and in the text printed. -/
theorem sep_W {c : Char} {R : α → Str → Prop} {f : α → Str} (hc : c ∈ c!",.")
    (item : ∀ a t, R a t → ∀ r r', Stop r → Stop r' → W r r' → W (t ++ r) (f a ++ r'))
    {as : List α} {t : Str} (h : SepText c R as t) {r r' : Str} (hr : Stop r) (hr' : Stop r') (hw : W r r') :
    W (t ++ r) (joinWith c (as.map f) ++ r') := by
  have hcw : Env.word c = false := word_ascii' c (by clear h item; revert hc; revert c; decide)
  induction h with
  | one h => exact item _ _ h _ _ hr hr' hw
  | @cons a as t w₁ w₂ ts ha hw₁ hw₂ hts ih =>
    have e : t ++ (w₁ ++ c :: (w₂ ++ ts)) ++ r = t ++ (w₁ ++ c :: (w₂ ++ (ts ++ r))) := by simp
    obtain ⟨b, bs, rfl⟩ : ∃ b bs, as = b :: bs := by
      cases hts with
      | one => exact ⟨_, _, rfl⟩
      | cons => exact ⟨_, _, rfl⟩
    have e' : joinWith c ((a :: b :: bs).map f) ++ r' = f a ++ c :: (joinWith c ((b :: bs).map f) ++ r') := by
      simp [joinWith]
    rw [e, e']
    refine item _ _ ha _ _ ?_ (stop_cons _ hcw) ((W.cons hcw (ih.trivia hw₂)).trivia hw₁)
    rcases trivia_head (t := c :: (w₂ ++ (ts ++ r))) hw₁ with rfl | ⟨d, s, e, hd⟩
    · exact stop_cons _ hcw
    · rw [e]
      exact stop_cons _ (word_ascii' d (by rcases hd with rfl | rfl | rfl | rfl | rfl <;> decide))

theorem q_W {q : QIdent} {t : Str} (h : QIdentText q t) {r r' : Str} (hr : Stop r) (hr' : Stop r') (hw : W r r') :
    W (t ++ r) (printQ q ++ r') := by
  have := sep_W (f := id) (c := '.') (by decide) (fun a t h r r' hr hr' hw => by
    obtain ⟨-, rfl⟩ := h
    exact W.text t hr hr' hw) h hr hr' hw
  rw [List.map_id] at this
  exact this

theorem ty_W {ty : Ty} {t : Str} (h : TyText ty t) {r r' : Str} (hr : Stop r) (hr' : Stop r') (hw : W r r') :
    W (t ++ r) (printTy ty ++ r') := by
  induction h generalizing r r' with
  | builtin b => exact W.text _ hr hr' hw
  | string => exact W.text _ hr hr' hw
  | @array ty t h ih =>
    have e : '[' :: (t ++ [']']) ++ r = '[' :: (t ++ ']' :: r) := by simp
    have e' : printTy (.array ty) ++ r' = '[' :: (printTy ty ++ ']' :: r') := by simp [printTy]
    rw [e, e']
    exact W.punct '[' (ih (stop_punct ']' _) (stop_punct ']' _) (W.punct ']' hw))
  | ident _ h => exact q_W h hr hr' hw

omit [Env] in
theorem digit_magic {c : Char} (h : c.isDigit = true) : c ∉ c!"nitf" := by
  intro hc
  have : ∀ c ∈ c!"nitf", c.isDigit = false := by decide
  rw [this c hc] at h
  cases h

omit [Env] in
theorem lit_magic {l : Str} (h : ∀ c ∈ l, c ∉ c!"nitf" := by decide) {c : Char} (hc : c ∈ l) : c ∉ c!"nitf" := h c hc

omit [Env] in
theorem printInt_magic (i : Int) : ∀ c ∈ printInt i, c ∉ c!"nitf" := by
  intro c hc
  unfold printInt at hc
  rcases List.mem_append.mp hc with hc | hc
  · split at hc
    · exact lit_magic (by decide) hc
    · cases hc
  · exact digit_magic (toDigits_digits _ c hc)

omit [Env] in
theorem printFloat_magic (b : Fin (2 ^ 64)) : ∀ c ∈ printFloat b, c ∉ c!"nitf" := by
  intro c hc
  unfold printFloat at hc
  rcases List.mem_append.mp hc with hc | hc
  · split at hc
    · exact lit_magic (by decide) hc
    · cases hc
  · split at hc
    · rcases List.mem_append.mp hc with hc | hc
      · exact digit_magic (toDigits_digits _ c hc)
      · exact lit_magic (by decide) hc
    · exact lit_magic (by decide) hc

theorem scalar_W {s : Scalar} {t : Str} (h : ScalarText s t) {r r' : Str} (hr : Stop r) (hr' : Stop r') (hw : W r r') :
    W (t ++ r) (printScalar s ++ r') := by
  cases h with
  | integer h => exact W.other t (printInt_magic _) hr hr' hw
  | float h => exact W.other t (printFloat_magic _) hr hr' hw
  | true => exact W.text _ hr hr' hw
  | false => exact W.text _ hr hr' hw

theorem string_W {s t : Str} (h : StringText s t) {r r' : Str} (hw : W r r') : W (t ++ r) (printString s ++ r') := by
  obtain ⟨-, rfl⟩ := h
  have hq := word_ascii' '"'
  have e : ∀ r : Str, '"' :: (s ++ ['"']) ++ r = '"' :: (s ++ '"' :: r) := by simp
  unfold printString
  rw [e, e]
  exact W.cons hq (W.text s (stop_cons _ hq) (stop_cons _ hq) (W.cons hq hw))

theorem single_W {s : Single} {t : Str} (h : SingleText s t) {r r' : Str} (hr : Stop r) (hr' : Stop r') (hw : W r r') :
    W (t ++ r) (printSingle s ++ r') := by
  cases h with
  | scalar h => exact scalar_W h hr hr' hw
  | string h => exact string_W h hw

theorem variant_W {v : EnumVariant} {t : Str} (h : VariantText v t) {r r' : Str} (hr : Stop r) (hr' : Stop r')
    (hw : W r r') : W (t ++ r) (printVariant v ++ r') := by
  cases h with
  | @mk d t hd hi ht =>
    unfold printVariant
    rw [List.append_assoc, List.append_assoc, List.append_assoc, List.append_assoc]
    refine doc_W hd ?_
    generalize v.value = o at ht
    cases ht with
    | none => exact W.text _ hr hr' hw
    | @some i w₁ w₂ t hw₁ hw₂ hi =>
      have e : w₁ ++ '=' :: (w₂ ++ t) ++ r = w₁ ++ '=' :: (w₂ ++ (t ++ r)) := by simp
      rw [e]
      exact W.text _ (Follow.trivia hw₁ '=').stop (stop_punct '=' _)
        ((W.punct '=' ((W.other t (printInt_magic i) hr hr' hw).trivia hw₂)).trivia hw₁)

theorem body_W {vs : List EnumVariant} {t : Str} (h : BodyText vs t) {r r' : Str} (hw : W r r') :
    W (t ++ r) (printBody vs ++ r') := by
  have e' : printBody vs ++ r' = '{' :: (joinWith ',' (vs.map printVariant) ++ '}' :: r') := by simp [printBody]
  rw [e']
  have key : ∀ {u r : Str}, SepText ',' VariantText vs u → Stop r → W r ('}' :: r') →
      W (u ++ r) (joinWith ',' (vs.map printVariant) ++ '}' :: r') := fun h hr hw =>
    sep_W (f := printVariant) (by decide) (fun a t h r r' hr hr' hw => variant_W h hr hr' hw) h hr (stop_punct '}' _) hw
  cases h with
  | @plain w₁ w₂ t w₃ hw₁ hw₂ ht hw₃ =>
    have e : w₁ ++ '{' :: (w₂ ++ (t ++ (w₃ ++ ['}']))) ++ r = w₁ ++ '{' :: (w₂ ++ (t ++ (w₃ ++ '}' :: r))) := by simp
    rw [e]
    exact (W.punct '{' ((key ht (Follow.trivia hw₃ '}').stop ((W.punct '}' hw).trivia hw₃)).trivia hw₂)).trivia hw₁
  | @comma w₁ w₂ t w₃ w₄ hw₁ hw₂ ht hw₃ hw₄ =>
    have e : w₁ ++ '{' :: (w₂ ++ (t ++ (w₃ ++ ',' :: (w₄ ++ ['}'])))) ++ r =
      w₁ ++ '{' :: (w₂ ++ (t ++ (w₃ ++ ',' :: (w₄ ++ '}' :: r)))) := by simp
    rw [e]
    refine (W.punct '{' ((key ht (Follow.trivia hw₃ ',').stop ?_).trivia hw₂)).trivia hw₁
    exact (W.skip (s := [',']) (cut_snoc [] word_punct) ((W.punct '}' hw).trivia hw₄)).trivia hw₃

/-- `keyword thing;` where the thing may be written in another way. -/
theorem keyword_W {kw : Str} {gap : Bool} {d : Comment} {s s' t : Str} (h : KeywordText kw gap d s t) {r r' : Str}
    (hd' : Comment) (hdd : hd' = d ∨ hd' = [])
    (hs : ∀ r r', Stop r → Stop r' → W r r' → W (s ++ r) (s' ++ r')) (hst : ∀ r, gap = false → Stop (s ++ r))
    (hw : W r r') : W (t ++ r) (printKeyword kw hd' s' ++ r') := by
  cases h with
  | @mk dt w₁ w₂ hd hw₁ hg hw₂ =>
    have e : dt ++ (kw ++ (w₁ ++ (s ++ (w₂ ++ [';'])))) ++ r = dt ++ (kw ++ (w₁ ++ (s ++ (w₂ ++ ';' :: r)))) := by simp
    have e' : printKeyword kw hd' s' ++ r' = printDoc hd' ++ (kw ++ ' ' :: (s' ++ ';' :: r')) := by simp [printKeyword]
    rw [e, e']
    have hsp := word_ascii' ' '
    have key : W (kw ++ (w₁ ++ (s ++ (w₂ ++ ';' :: r)))) (kw ++ ' ' :: (s' ++ ';' :: r')) := by
      refine W.text kw ?_ (stop_cons _ hsp) (W.insert hsp ((hs _ _ (Follow.trivia hw₂ ';').stop (stop_punct ';' _)
        ((W.punct ';' hw).trivia hw₂)).trivia hw₁))
      rcases trivia_head (t := s ++ (w₂ ++ ';' :: r)) hw₁ with rfl | ⟨d, u, e, hd⟩
      · cases gap with
        | true => exact absurd rfl (hg rfl)
        | false => exact hst _ rfl
      · rw [e]
        exact stop_cons _ (word_ascii' d (by rcases hd with rfl | rfl | rfl | rfl | rfl <;> decide))
    rcases hdd with rfl | rfl
    · exact doc_W hd key
    · exact key.skip (cut_doc hd)

end Butte.Parse
