import Verif.Parse.Suffix
import Verif.Parse.Render
import Mathlib.Tactic.Tauto
import Mathlib.Tactic.ByContra
/-
Reading the small parts of a schema text: white space and comments, identifiers, documentation, lists.
-/
namespace Butte.Parse

open Ast

variable {α β γ : Type}

/-! ### Combinators on known results -/

theorem map_eq {p : P α} {f : α → β} {i r : Str} {a : α} (h : p i = some (r, a)) :
    map p f i = some (r, f a) := by unfold map; rw [h]

theorem map_none {p : P α} {f : α → β} {i : Str} (h : p i = none) : map p f i = none := by unfold map; rw [h]

theorem mapRes_eq {p : P α} {f : α → Option β} {i r : Str} {a : α} {b : β} (h : p i = some (r, a))
    (hf : f a = some b) : mapRes p f i = some (r, b) := by unfold mapRes; rw [h]; simp only [hf]

theorem mapRes_none {p : P α} {f : α → Option β} {i : Str} (h : p i = none) : mapRes p f i = none := by
  unfold mapRes; rw [h]

theorem value_eq {p : P α} {b : β} {i r : Str} {a : α} (h : p i = some (r, a)) : value b p i = some (r, b) :=
  map_eq h

theorem value_none {p : P α} {b : β} {i : Str} (h : p i = none) : value b p i = none := map_none h

theorem opt_some {p : P α} {i r : Str} {a : α} (h : p i = some (r, a)) : opt p i = some (r, some a) := by
  unfold opt; rw [h]

theorem opt_none {p : P α} {i : Str} (h : p i = none) : opt p i = some (i, none) := by unfold opt; rw [h]

theorem pnot_eq {p : P α} {i : Str} (h : p i = none) : pnot p i = some (i, ()) := by unfold pnot; rw [h]

theorem pnot_none {p : P α} {i r : Str} {a : α} (h : p i = some (r, a)) : pnot p i = none := by
  unfold pnot; rw [h]

theorem alt_left {p q : P α} {i r : Str} {a : α} (h : p i = some (r, a)) : alt p q i = some (r, a) := by
  unfold alt; rw [h]

theorem alt_right {p q : P α} {i : Str} (h : p i = none) : alt p q i = q i := by unfold alt; rw [h]

theorem pair_eq {p : P α} {q : P β} {i j k : Str} {a : α} {b : β} (h1 : p i = some (j, a))
    (h2 : q j = some (k, b)) : pair p q i = some (k, (a, b)) := by unfold pair; rw [h1]; simp only [h2]

theorem pair_none_left {p : P α} {q : P β} {i : Str} (h1 : p i = none) : pair p q i = none := by
  unfold pair; rw [h1]

theorem pair_none_right {p : P α} {q : P β} {i j : Str} {a : α} (h1 : p i = some (j, a)) (h2 : q j = none) :
    pair p q i = none := by unfold pair; rw [h1]; simp only [h2]

theorem preceded_eq {p : P α} {q : P β} {i j k : Str} {a : α} {b : β} (h1 : p i = some (j, a))
    (h2 : q j = some (k, b)) : preceded p q i = some (k, b) := map_eq (pair_eq h1 h2)

theorem preceded_none_left {p : P α} {q : P β} {i : Str} (h1 : p i = none) : preceded p q i = none :=
  map_none (pair_none_left h1)

theorem preceded_none_right {p : P α} {q : P β} {i j : Str} {a : α} (h1 : p i = some (j, a)) (h2 : q j = none) :
    preceded p q i = none := map_none (pair_none_right h1 h2)

theorem terminated_eq {p : P α} {q : P β} {i j k : Str} {a : α} {b : β} (h1 : p i = some (j, a))
    (h2 : q j = some (k, b)) : terminated p q i = some (k, a) := map_eq (pair_eq h1 h2)

theorem terminated_none_left {p : P α} {q : P β} {i : Str} (h1 : p i = none) : terminated p q i = none :=
  map_none (pair_none_left h1)

theorem terminated_none_right {p : P α} {q : P β} {i j : Str} {a : α} (h1 : p i = some (j, a)) (h2 : q j = none) :
    terminated p q i = none := map_none (pair_none_right h1 h2)

theorem delimited_eq {p : P α} {q : P β} {s : P γ} {i j k l : Str} {a : α} {b : β} {c : γ}
    (h1 : p i = some (j, a)) (h2 : q j = some (k, b)) (h3 : s k = some (l, c)) :
    delimited p q s i = some (l, b) := preceded_eq h1 (terminated_eq h2 h3)

theorem delimited_none_left {p : P α} {q : P β} {s : P γ} {i : Str} (h1 : p i = none) :
    delimited p q s i = none := preceded_none_left h1

theorem delimited_none_mid {p : P α} {q : P β} {s : P γ} {i j : Str} {a : α} (h1 : p i = some (j, a))
    (h2 : q j = none) : delimited p q s i = none := preceded_none_right h1 (terminated_none_left h2)

theorem delimited_none_right {p : P α} {q : P β} {s : P γ} {i j k : Str} {a : α} {b : β} (h1 : p i = some (j, a))
    (h2 : q j = some (k, b)) (h3 : s k = none) : delimited p q s i = none :=
  preceded_none_right h1 (terminated_none_right h2 h3)

theorem recognize_eq {p : P α} {t r : Str} {a : α} (h : p (t ++ r) = some (r, a)) :
    recognize p (t ++ r) = some (r, t) := by
  unfold recognize; rw [h]; simp

theorem recognize_none {p : P α} {i : Str} (h : p i = none) : recognize p i = none := by
  unfold recognize; rw [h]

theorem char_eq (c : Char) (r : Str) : char c (c :: r) = some (r, c) := by simp [char, satisfy]

theorem char_none {c d : Char} {r : Str} (h : d ≠ c) : char c (d :: r) = none := by simp [char, satisfy, h]

theorem satisfy_none {f : Char → Bool} {d : Char} {r : Str} (h : f d = false) : satisfy f (d :: r) = none := by
  simp [satisfy, h]

theorem satisfy_eq {f : Char → Bool} {d : Char} {r : Str} (h : f d = true) :
    satisfy f (d :: r) = some (r, d) := by
  simp [satisfy, h]

theorem tag_eq (t r : Str) : tag t (t ++ r) = some (r, t) := by
  unfold tag
  rw [if_pos (List.isPrefixOf_iff_prefix.mpr ⟨r, rfl⟩)]
  simp

theorem tag_none {t i : Str} (h : ¬ t <+: i) : tag t i = none := by
  unfold tag
  rw [if_neg (fun hc => h (List.isPrefixOf_iff_prefix.mp hc))]

/-- The character does not satisfy `f`, or there is none. -/
def Stops (f : Char → Bool) (r : Str) : Prop := ∀ c t, r = c :: t → f c = false

theorem takeWhile_eq {f : Char → Bool} {t r : Str} (h : ∀ c ∈ t, f c = true) (hr : Stops f r) :
    takeWhile f (t ++ r) = some (r, t) := by
  unfold takeWhile
  rw [List.takeWhile_append_of_pos h, List.dropWhile_append_of_pos h]
  cases r with
  | nil => simp
  | cons c r => simp [hr c r rfl]

theorem takeWhile1_eq {f : Char → Bool} {t r : Str} (ht : t ≠ []) (h : ∀ c ∈ t, f c = true) (hr : Stops f r) :
    takeWhile1 f (t ++ r) = some (r, t) := by
  have := takeWhile_eq h hr
  unfold takeWhile at this
  unfold takeWhile1
  simp only [Option.some.injEq, Prod.mk.injEq] at this
  rw [this.1, this.2]
  cases t with
  | nil => exact absurd rfl ht
  | cons c t => rfl

theorem takeWhile1_none {f : Char → Bool} {r : Str} (hr : Stops f r) : takeWhile1 f r = none := by
  unfold takeWhile1
  cases r with
  | nil => rfl
  | cons c r => simp [hr c r rfl]

/-! ### White space and comments -/

theorem isSpace_iff (c : Char) : isSpace c = true ↔ (c = ' ' ∨ c = '\t' ∨ c = '\r' ∨ c = '\n') := by
  simp [isSpace, or_assoc]

theorem dropWhile_one {b : Str} (hb : OneLine b) (r : Str) (hr : Stops (fun c => !isEol c) r) :
    (b ++ r).dropWhile (fun c => !isEol c) = r ∧ (b ++ r).takeWhile (fun c => !isEol c) = b := by
  have := takeWhile_eq (f := fun c => !isEol c) (t := b) (r := r)
    (fun c hc => by simp [isEol, hb c hc]) hr
  unfold takeWhile at this
  simp only [Option.some.injEq, Prod.mk.injEq] at this
  exact this

theorem notLineEnding_eq {b nl t : Str} (hb : OneLine b) (hn : Eol nl) :
    notLineEnding (b ++ (nl ++ t)) = some (nl ++ t, b) := by
  have hs : Stops (fun c => !isEol c) (nl ++ t) := by
    intro c t' e
    rcases hn with rfl | rfl <;> · cases e; rfl
  obtain ⟨h1, h2⟩ := dropWhile_one hb _ hs
  unfold notLineEnding
  rw [h1, h2]
  rcases hn with rfl | rfl <;> rfl

theorem notLineEnding_end {b : Str} (hb : OneLine b) : notLineEnding b = some ([], b) := by
  obtain ⟨h1, h2⟩ := dropWhile_one hb [] (fun c t e => by cases e)
  rw [List.append_nil] at h1 h2
  unfold notLineEnding
  rw [h1, h2]

theorem lineEnding_eq {nl t : Str} (hn : Eol nl) : lineEnding (nl ++ t) = some (t, nl) := by
  rcases hn with rfl | rfl <;> rfl

theorem comment_eq {b nl t : Str} (hb : OneLine b) (hh : b.head? ≠ some '/') (hn : Eol nl) :
    comment ('/' :: '/' :: (b ++ (nl ++ t))) = some (nl ++ t, ()) := by
  refine value_eq (pair_eq (tag_eq c!"//" _) (pair_eq (pnot_eq (tag_none ?_)) (notLineEnding_eq hb hn)))
  rintro ⟨s, hs⟩
  cases b with
  | nil => rcases hn with rfl | rfl <;> cases hs
  | cons c b => cases hs; exact hh rfl

theorem comment_end {b : Str} (hb : OneLine b) (hh : b.head? ≠ some '/') :
    comment ('/' :: '/' :: b) = some ([], ()) := by
  refine value_eq (pair_eq (tag_eq c!"//" _) (pair_eq (pnot_eq (tag_none ?_)) (notLineEnding_end hb)))
  rintro ⟨s, hs⟩
  cases b with
  | nil => cases hs
  | cons c b => cases hs; exact hh rfl

theorem comment_none {c : Char} {t : Str} (h : c ≠ '/') : comment (c :: t) = none := by
  refine value_none (pair_none_left (tag_none ?_))
  rintro ⟨s, hs⟩
  cases hs
  exact h rfl

theorem comment_doc (t : Str) : comment ('/' :: '/' :: '/' :: t) = none := by
  refine value_none (pair_none_right (tag_eq c!"//" _) (pair_none_left (pnot_none (tag_eq c!"/" t))))

/-- Nothing to skip here. -/
def Solid (t : Str) : Prop := commentOrSpace t = none

theorem solid_cons {c : Char} {t : Str} (h : c ≠ '/') (hs : isSpace c = false) : Solid (c :: t) := by
  unfold Solid commentOrSpace
  rw [alt_right (comment_none h)]
  refine value_none (takeWhile1_none ?_)
  intro d t' e
  cases e
  exact hs

theorem solid_doc (t : Str) : Solid ('/' :: '/' :: '/' :: t) := by
  unfold Solid commentOrSpace
  rw [alt_right (comment_doc t)]
  refine value_none (takeWhile1_none ?_)
  intro d t' e
  cases e
  rfl

theorem solid_nil : Solid [] := rfl

/-- `comment_or_space0` as a loop. -/
theorem cos0_eq (i : Str) :
    cos0 i = match commentOrSpace i with
      | none => some (i, ())
      | some (r, _) => cos0 r := by
  show value () (many0 commentOrSpace) i = _
  unfold value map
  rw [many0_eq commentOrSpace_strict.consumes]
  cases h : commentOrSpace i with
  | none => rfl
  | some x =>
    obtain ⟨r, u⟩ := x
    have hl := commentOrSpace_strict.ne h
    have hne : r ≠ i := by intro hc; subst hc; omega
    simp only [hne, if_false]
    unfold cos0 value map
    obtain ⟨r', as, h1, -⟩ := many0_total commentOrSpace_strict r
    rw [h1]
    rfl

theorem cos0_solid {t : Str} (h : Solid t) : cos0 t = some (t, ()) := by
  rw [cos0_eq, h]

theorem cos0_dropWhile (t : Str) : cos0 (t.dropWhile isSpace) = cos0 t := by
  cases t with
  | nil => rfl
  | cons c t =>
    by_cases hc : isSpace c = true
    · have h1 : commentOrSpace (c :: t) = some ((c :: t).dropWhile isSpace, ()) := by
        unfold commentOrSpace
        rw [alt_right (comment_none (by rintro rfl; cases hc))]
        refine value_eq (a := (c :: t).takeWhile isSpace) ?_
        unfold multispace1 takeWhile1
        rw [List.takeWhile_cons_of_pos hc]
      rw [cos0_eq (c :: t), h1]
    · rw [List.dropWhile_cons_of_neg hc]

theorem cos0_trivia {w : Str} (h : Trivia w) (t : Str) : cos0 (w ++ t) = cos0 t := by
  induction h with
  | nil => rfl
  | @space c w hc hw ih =>
    have hc' := (isSpace_iff c).mpr hc
    rw [← cos0_dropWhile, List.cons_append, List.dropWhile_cons_of_pos hc', cos0_dropWhile, ih]
  | @comment b nl w hb hh hn hw ih =>
    have e : '/' :: '/' :: (b ++ (nl ++ w)) ++ t = '/' :: '/' :: (b ++ (nl ++ (w ++ t))) := by simp
    rw [e, cos0_eq]
    have : commentOrSpace ('/' :: '/' :: (b ++ (nl ++ (w ++ t)))) = some (nl ++ (w ++ t), ()) :=
      alt_left (comment_eq hb hh hn)
    rw [this]
    simp only
    rw [← cos0_dropWhile]
    have h2 : (nl ++ (w ++ t)).dropWhile isSpace = (w ++ t).dropWhile isSpace := by
      rcases hn with rfl | rfl
      · rw [List.cons_append, List.dropWhile_cons_of_pos rfl, List.nil_append]
      · rw [List.cons_append, List.dropWhile_cons_of_pos rfl, List.cons_append, List.dropWhile_cons_of_pos rfl,
          List.nil_append]
    rw [h2, cos0_dropWhile, ih]

/-- White space and comments in front of something else are skipped. -/
theorem cos0_skip {w t : Str} (h : Trivia w) (ht : Solid t) : cos0 (w ++ t) = some (t, ()) := by
  rw [cos0_trivia h, cos0_solid ht]

theorem cos0_last {e : Str} (h : LastComment e) : cos0 e = some ([], ()) := by
  cases h with
  | none => rfl
  | some hb hh =>
    rw [cos0_eq]
    have : commentOrSpace _ = some ([], ()) := alt_left (comment_end hb hh)
    rw [this]
    rfl

theorem trivia_cos {w t : Str} (h : Trivia w) (hne : w ≠ []) : ∃ r, commentOrSpace (w ++ t) = some (r, ()) := by
  cases h with
  | nil => exact absurd rfl hne
  | @space c w hc hw =>
    have hc' := (isSpace_iff c).mpr hc
    refine ⟨(c :: (w ++ t)).dropWhile isSpace, ?_⟩
    unfold commentOrSpace
    rw [List.cons_append, alt_right (comment_none (by rintro rfl; cases hc'))]
    refine value_eq (a := (c :: (w ++ t)).takeWhile isSpace) ?_
    unfold multispace1 takeWhile1
    rw [List.takeWhile_cons_of_pos hc']
  | @comment b nl w hb hh hn hw =>
    have e : '/' :: '/' :: (b ++ (nl ++ w)) ++ t = '/' :: '/' :: (b ++ (nl ++ (w ++ t))) := by simp
    rw [e]
    exact ⟨_, alt_left (comment_eq hb hh hn)⟩

theorem cos1_skip {w t : Str} (h : Trivia w) (hne : w ≠ []) (ht : Solid t) : cos1 (w ++ t) = some (t, ()) := by
  obtain ⟨r, hr⟩ := trivia_cos (t := t) h hne
  have h0 := cos0_skip h ht
  rw [cos0_eq, hr] at h0
  simp only at h0
  unfold cos1 value map many1
  rw [hr]
  simp only
  obtain ⟨r', as, h1, -⟩ := many0_total commentOrSpace_strict r
  have h2 : cos0 r = some (r', ()) := by unfold cos0 value map; rw [h1]
  rw [h0] at h2
  cases h2
  rw [h1]
  rfl

/-! ### Beginnings and ends of tokens -/

/-- Something other than white space, comments and documentation begins here. -/
def Tok (t : Str) : Prop := ∃ c s, t = c :: s ∧ c ≠ '/' ∧ isSpace c = false

theorem Tok.solid {t : Str} (h : Tok t) : Solid t := by
  obtain ⟨c, s, rfl, h1, h2⟩ := h
  exact solid_cons h1 h2

theorem Tok.append {t : Str} (h : Tok t) (r : Str) : Tok (t ++ r) := by
  obtain ⟨c, s, rfl, h1, h2⟩ := h
  exact ⟨c, s ++ r, rfl, h1, h2⟩

theorem tok_cons (c : Char) (t : Str) (h : c ≠ '/' := by decide) (hs : isSpace c = false := by decide) :
    Tok (c :: t) := ⟨c, t, rfl, h, hs⟩

theorem trivia_head {w t : Str} (h : Trivia w) :
    w = [] ∨ ∃ c s, w ++ t = c :: s ∧ (c = ' ' ∨ c = '\t' ∨ c = '\r' ∨ c = '\n' ∨ c = '/') := by
  cases h with
  | nil => exact .inl rfl
  | space hc hw => exact .inr ⟨_, _, rfl, by tauto⟩
  | comment => exact .inr ⟨_, _, rfl, by tauto⟩

/-- The characters that end a token. -/
def delims : Str := c!" \t\r\n/=();{}[],:"

/-- The next character ends a token. -/
def Delim (r : Str) : Prop := ∃ c t, r = c :: t ∧ c ∈ delims

/-- The next thing after white space and comments is a punctuation mark. -/
def Follow (r : Str) : Prop := ∃ w c t, Trivia w ∧ c ∈ c!"=();{}[],:" ∧ r = w ++ c :: t

theorem punct_delims : ∀ c ∈ c!"=();{}[],:", c ∈ delims := by decide

theorem Follow.delim {r : Str} (h : Follow r) : Delim r := by
  obtain ⟨w, c, t, hw, hc, rfl⟩ := h
  rcases trivia_head (t := c :: t) hw with rfl | ⟨d, s, e, hd⟩
  · exact ⟨c, t, rfl, punct_delims c hc⟩
  · refine ⟨d, s, e, ?_⟩
    rcases hd with rfl | rfl | rfl | rfl | rfl <;> decide

theorem Follow.trivia {w r : Str} (hw : Trivia w) (c : Char) (hc : c ∈ c!"=();{}[],:" := by decide) :
    Follow (w ++ c :: r) := ⟨w, c, r, hw, hc, rfl⟩

theorem Follow.mk (c : Char) (r : Str) (hc : c ∈ c!"=();{}[],:" := by decide) : Follow (c :: r) :=
  ⟨[], c, r, .nil, hc, rfl⟩

theorem trivia_append {w v : Str} (hw : Trivia w) (hv : Trivia v) : Trivia (w ++ v) := by
  induction hw with
  | nil => exact hv
  | space hc _ ih => exact .space hc ih
  | @comment b nl w hb hh hn _ ih =>
    have : '/' :: '/' :: (b ++ (nl ++ w)) ++ v = '/' :: '/' :: (b ++ (nl ++ (w ++ v))) := by simp
    rw [this]
    exact .comment hb hh hn ih

theorem Follow.skip {w r : Str} (hw : Trivia w) (h : Follow r) : Follow (w ++ r) := by
  obtain ⟨v, c, t, hv, hc, rfl⟩ := h
  exact ⟨w ++ v, c, t, trivia_append hw hv, hc, by simp⟩

theorem delims_ascii : ∀ c ∈ delims, c.toNat < 128 ∧ c.isAlpha = false ∧ c.isDigit = false ∧ c ≠ '_' ∧
    isHexDigit c = false ∧ c ≠ '.' ∧ c ≠ 'e' ∧ c ≠ 'E' ∧ c ≠ 'p' ∧ c ≠ 'P' ∧ c ≠ 'x' ∧ c ≠ 'X' ∧
    c.isAlphanum = false := by decide

variable [Env]

theorem delim_identRest {c : Char} (h : c ∈ delims) : identRest c = false := by
  have := delims_ascii c h
  unfold identRest
  rw [Env.alphabetic_ascii _ this.1, Env.numeric_ascii _ this.1]
  simp [this]

theorem delim_word {c : Char} (h : c ∈ delims) : Env.word c = false := by
  have := delims_ascii c h
  rw [Env.word_ascii _ this.1]
  simp [this]

theorem Delim.stops {r : Str} (h : Delim r) : Stops identRest r := by
  obtain ⟨c, t, rfl, hc⟩ := h
  intro d s e
  cases e
  exact delim_identRest hc

omit [Env] in
theorem Delim.stopsDigit {r : Str} (h : Delim r) : Stops isDigit r := by
  obtain ⟨c, t, rfl, hc⟩ := h
  intro d s e
  cases e
  exact (delims_ascii _ hc).2.2.1

omit [Env] in
theorem Delim.stopsHex {r : Str} (h : Delim r) : Stops isHexDigit r := by
  obtain ⟨c, t, rfl, hc⟩ := h
  intro d s e
  cases e
  exact (delims_ascii _ hc).2.2.2.2.1

/-! ### Identifiers -/

theorem identStart_ascii {c : Char} (h : identStart c = true) (hc : c.toNat < 128) :
    c.isAlpha = true ∨ c = '_' := by
  unfold identStart at h
  rw [Env.alphabetic_ascii c hc] at h
  simpa using h

theorem identStart_ne {c : Char} (h : identStart c = true) (d : Char) (hd : d.toNat < 128 := by decide)
    (ha : ¬ (d.isAlpha = true ∨ d = '_') := by decide) : c ≠ d := by
  rintro rfl
  exact ha (identStart_ascii h hd)

omit [Env] in
theorem isDigit_spec {c : Char} (h : c.isDigit = true) : c.toNat < 128 ∧ ¬ (c.isAlpha = true ∨ c = '_') := by
  have hd : 48 ≤ c.toNat ∧ c.toNat ≤ 57 := by
    simp only [Char.isDigit, Bool.and_eq_true, decide_eq_true_eq, UInt32.le_iff_toNat_le, ge_iff_le] at h
    exact h
  refine ⟨by omega, ?_⟩
  rintro (ha | rfl)
  · simp only [Char.isAlpha, Char.isUpper, Char.isLower, Bool.or_eq_true, Bool.and_eq_true,
      decide_eq_true_eq, UInt32.le_iff_toNat_le, ge_iff_le] at ha
    rcases ha with ha | ha
    · have : 65 ≤ c.toNat := ha.1
      omega
    · have : 97 ≤ c.toNat := ha.1
      omega
  · revert hd; decide

theorem identStart_not {c : Char} (h : identStart c = true) : c ≠ '/' ∧ isSpace c = false ∧ c.isDigit = false := by
  refine ⟨identStart_ne h _, ?_, ?_⟩
  · by_contra hs
    rw [Bool.not_eq_false, isSpace_iff] at hs
    rcases hs with e | e | e | e <;> exact identStart_ne h _ (by decide) (by decide) e
  · by_contra hd
    rw [Bool.not_eq_false] at hd
    have := isDigit_spec hd
    exact this.2 (identStart_ascii h this.1)

theorem ident_none {c : Char} {t : Str} (h : identStart c = false) : ident (c :: t) = none :=
  recognize_none (preceded_none_left (satisfy_none h))

theorem IsIdent.cases {i : Ident} (h : IsIdent i) :
    ∃ c cs, i = c :: cs ∧ identStart c = true ∧ ∀ d ∈ cs, identRest d = true := by
  cases i with
  | nil => exact h.elim
  | cons c cs =>
    refine ⟨c, cs, rfl, ?_, fun d hd => ?_⟩
    · have := h.1
      simp [identStart, this]
    · have := h.2 d hd
      simp [identRest, or_assoc, this]

theorem IsIdent.tok {i : Ident} (h : IsIdent i) (r : Str) : Tok (i ++ r) := by
  obtain ⟨c, cs, rfl, h1, h2⟩ := h.cases
  have := identStart_not h1
  exact ⟨c, cs ++ r, rfl, this.1, this.2.1⟩

theorem ident_eq {i r : Str} (h : IsIdent i) (hr : Stops identRest r) : ident (i ++ r) = some (r, i) := by
  obtain ⟨c, cs, rfl, h1, h2⟩ := h.cases
  exact recognize_eq (preceded_eq (satisfy_eq h1) (takeWhile_eq h2 hr))

/-! ### Documentation -/

omit [Env] in
theorem docText_solid {d : Comment} {t s : Str} (h : DocText d t) (hs : Solid s) : Solid (t ++ s) := by
  cases h with
  | nil => exact hs
  | cons => exact solid_doc _

omit [Env] in
theorem docLine_none {t : Str} (h : Tok t) : terminated (terminated rawDocComment lineEnding) cos0 t = none := by
  obtain ⟨c, s, rfl, h1, h2⟩ := h
  refine terminated_none_left (terminated_none_left (preceded_none_left (tag_none ?_)))
  rintro ⟨s', hs⟩
  cases hs
  exact h1 rfl

omit [Env] in
theorem docComment_eq {d : Comment} {t s : Str} (h : DocText d t) (hs : Tok s) :
    docComment (t ++ s) = some (s, d) := by
  induction h with
  | nil =>
    unfold docComment
    rw [many0_eq docLine_strict.consumes, List.nil_append, docLine_none hs]
  | @cons l nl w t d hl hn hw hd ih =>
    have e : '/' :: '/' :: '/' :: (l ++ (nl ++ (w ++ t))) ++ s = c!"///" ++ (l ++ (nl ++ (w ++ (t ++ s)))) := by
      simp
    have h1 : terminated (terminated rawDocComment lineEnding) cos0 (c!"///" ++ (l ++ (nl ++ (w ++ (t ++ s))))) =
        some (t ++ s, l) :=
      terminated_eq (terminated_eq (preceded_eq (tag_eq _ _) (notLineEnding_eq hl hn)) (lineEnding_eq hn))
        (cos0_skip hw (docText_solid hd hs.solid))
    unfold docComment at ih ⊢
    rw [e, many0_eq docLine_strict.consumes, h1]
    have hne : t ++ s ≠ c!"///" ++ (l ++ (nl ++ (w ++ (t ++ s)))) := by
      intro hc
      have := congrArg List.length hc
      simp at this
      omega
    simp only [hne, if_false, ih, push]

/-! ### Positions where a word may begin -/

/-- The text does not end inside a word. -/
def Cut (t : Str) : Prop := ∀ c, t.getLast? = some c → Env.word c = false

theorem cut_nil : Cut [] := by intro c h; cases h

theorem Cut.append {s t : Str} (hs : Cut s) (ht : Cut t) : Cut (s ++ t) := by
  intro c h
  rw [List.getLast?_append] at h
  cases e : t.getLast? with
  | none => rw [e] at h; exact hs c h
  | some d => rw [e] at h; cases h; exact ht _ e

theorem cut_snoc (s : Str) {c : Char} (h : Env.word c = false) : Cut (s ++ [c]) := by
  intro d hd
  rw [List.getLast?_append] at hd
  cases hd
  exact h

theorem cut_cons {c : Char} {t : Str} (h : Env.word c = false) (ht : Cut t) : Cut (c :: t) :=
  Cut.append (s := [c]) (cut_snoc [] h) ht

theorem cut_append_cons (s : Str) {c : Char} {t : Str} (h : Env.word c = false) (ht : Cut t) : Cut (s ++ c :: t) := by
  have := (cut_snoc s h).append ht
  simpa using this

theorem word_space {c : Char} (h : c = ' ' ∨ c = '\t' ∨ c = '\r' ∨ c = '\n') : Env.word c = false :=
  delim_word (by rcases h with rfl | rfl | rfl | rfl <;> decide)

theorem cut_eol {nl : Str} (h : Eol nl) (s : Str) : Cut (s ++ nl) := by
  rcases h with rfl | rfl
  · exact cut_snoc s (word_space (by simp))
  · have := cut_snoc (s ++ ['\r']) (c := '\n') (word_space (by simp))
    simpa using this

theorem cut_trivia {w : Str} (h : Trivia w) : Cut w := by
  induction h with
  | nil => exact cut_nil
  | space hc _ ih => exact cut_cons (word_space hc) ih
  | @comment b nl w hb hh hn hw ih =>
    have := (cut_eol hn ('/' :: '/' :: b)).append ih
    simpa using this

theorem cut_doc {d : Comment} {t : Str} (h : DocText d t) : Cut t := by
  induction h with
  | nil => exact cut_nil
  | @cons l nl w t d hl hn hw hd ih =>
    have := ((cut_eol hn ('/' :: '/' :: '/' :: l)).append (cut_trivia hw)).append ih
    simpa using this

theorem NoSpecial.drop {s t : Str} (h : NoSpecial (s ++ t)) (hs : Cut s) : NoSpecial t := by
  intro w hw a b e
  rcases h w hw (s ++ a) b (by rw [e]; simp) with ⟨c, hc, hcw⟩ | h'
  · left
    rw [List.getLast?_append] at hc
    cases ha : a.getLast? with
    | none => rw [ha] at hc; rw [hs c hc] at hcw; cases hcw
    | some d => rw [ha] at hc; cases hc; exact ⟨_, rfl, hcw⟩
  · exact .inr h'

/-! ### Lists -/

/-- Items separated by `c`, read by the loop of `separated_list`. `Q` is a condition on the whole input that is kept
when moving forward. -/
theorem sepRest_text {s : P β} {p : P α} {c : Char} {R : α → Str → Prop} {Q K : Str → Prop}
    (hs : Strict s) (hp : Strict p) (hcw : Env.word c = false)
    (hQ : ∀ pre t, Cut pre → Q (pre ++ t) → Q t)
    (sepOk : ∀ w₁ w₂ t, Trivia w₁ → Trivia w₂ → Solid t → ∃ b, s (w₁ ++ c :: (w₂ ++ t)) = some (t, b))
    (hK : ∀ w t, Trivia w → K (w ++ c :: t))
    (item : ∀ a t r, R a t → K r → Q (t ++ r) → p (t ++ r) = some (r, a))
    (start : ∀ a t r, R a t → Solid (t ++ r))
    {as : List α} {t : Str} (h : SepText c R as t) {r : Str} (hr : K r)
    (hend : s r = none ∨ ∃ r' b, s r = some (r', b) ∧ p r' = none) (hq : Q (t ++ r)) :
    sepList1 s p (t ++ r) = some (r, as) := by
  induction h with
  | @one a t ha =>
    have h1 := item a t r ha hr hq
    have hne : r ≠ t ++ r := by
      intro hc
      have := hp.ne h1
      rw [← hc] at this
      omega
    have h2 : sepRest s p r = some (r, []) := by
      rw [sepRest_eq hs.consumes hp.consumes]
      rcases hend with he | ⟨r', b, he, hn⟩
      · rw [he]
      · have hne' : r' ≠ r := by
          intro hc
          have := hs.ne he
          rw [hc] at this
          omega
        rw [he]
        simp only [hne', if_false, hn]
    unfold sepList1
    rw [h1]
    simp only [hne, if_false]
    unfold sepRest at h2
    rw [h2]
    rfl
  | @cons a as t w₁ w₂ ts ha hw₁ hw₂ hts ih =>
    have e : t ++ (w₁ ++ c :: (w₂ ++ ts)) ++ r = t ++ (w₁ ++ c :: (w₂ ++ (ts ++ r))) := by simp
    rw [e] at hq ⊢
    have hq' : Q (ts ++ r) := by
      refine hQ (t ++ (w₁ ++ c :: w₂)) _ ?_ (by simpa using hq)
      rw [← List.append_assoc]
      exact cut_append_cons _ hcw (cut_trivia hw₂)
    have ih := ih hq'
    have h1 := item a t _ ha (hK w₁ (w₂ ++ (ts ++ r)) hw₁) hq
    have hsol : Solid (ts ++ r) := by
      cases hts with
      | one hb => exact start _ _ _ hb
      | cons hb => rw [List.append_assoc]; exact start _ _ _ hb
    obtain ⟨b, h2⟩ := sepOk w₁ w₂ (ts ++ r) hw₁ hw₂ hsol
    obtain ⟨j, a', as', h3, hj, h4, rfl⟩ := sepList1_some ih
    have hne : w₁ ++ c :: (w₂ ++ (ts ++ r)) ≠ t ++ (w₁ ++ c :: (w₂ ++ (ts ++ r))) := by
      intro hc
      have := hp.ne h1
      rw [← hc] at this
      omega
    have hne2 : ts ++ r ≠ w₁ ++ c :: (w₂ ++ (ts ++ r)) := by
      intro hc
      have := hs.ne h2
      rw [← hc] at this
      omega
    have hne3 : j ≠ w₁ ++ c :: (w₂ ++ (ts ++ r)) := by
      intro hc
      have h5 := hs.ne h2
      have h6 := hp.ne h3
      rw [← hc] at h5
      omega
    have h7 : sepRest s p (w₁ ++ c :: (w₂ ++ (ts ++ r))) = some (r, a' :: as') := by
      rw [sepRest_eq hs.consumes hp.consumes, h2]
      simp only [hne2, if_false, h3, hne3]
      unfold sepRest
      rw [h4]
      rfl
    unfold sepList1
    rw [h1]
    simp only [hne, if_false]
    unfold sepRest at h7
    rw [h7]
    rfl

/-- Items followed by white space, read by `many0`. `tail` is what follows the last item. -/
theorem many0_text {p : P α} {R : α → Str → Prop} {Q : Str → Prop} (hp : Strict p)
    (hQ : ∀ pre t, Cut pre → Q (pre ++ t) → Q t)
    (item : ∀ a t r, R a t → Q (t ++ r) → p (t ++ r) = some (r, a))
    (start : ∀ a t r, R a t → Solid (t ++ r)) (hcut : ∀ a t, R a t → Cut t)
    {as : List α} {t : Str} (h : ManyText R as t) {w r r' : Str} (hw : Trivia w)
    (hr : cos0 r = some (r', ())) (hend : delimited cos0 p cos0 r = none)
    (hend' : delimited cos0 p cos0 r' = none) (hend'' : as = [] → w = [])
    (hq : Q (w ++ (t ++ r))) :
    many0 (delimited cos0 p cos0) (w ++ (t ++ r)) = some (if as = [] then r else r', as) := by
  have key : ∀ (as : List α) (t : Str), ManyText R as t → ∀ w, Trivia w → Q (w ++ (t ++ r)) → as ≠ [] →
      many0 (delimited cos0 p cos0) (w ++ (t ++ r)) = some (r', as) := by
    intro as t h
    induction h with
    | nil => intro w hw hq hne; exact absurd rfl hne
    | @cons a as t w' ts ha hw' hts ih =>
      intro w hw hq _
      have hq1 : Q (t ++ (w' ++ (ts ++ r))) := hQ w _ (cut_trivia hw) (by simpa using hq)
      have hq2 : Q (ts ++ r) := by
        refine hQ (t ++ w') _ ((hcut _ _ ha).append (cut_trivia hw')) (by simpa using hq1)
      have e : w ++ (t ++ (w' ++ ts) ++ r) = w ++ (t ++ (w' ++ (ts ++ r))) := by simp
      rw [e]
      cases hts with
      | nil =>
        have h1 : delimited cos0 p cos0 (w ++ (t ++ (w' ++ ([] ++ r)))) = some (r', a) :=
          delimited_eq (cos0_skip hw (start _ _ _ ha)) (item _ _ _ ha hq1)
            (by rw [List.nil_append, cos0_trivia hw', hr])
        rw [many0_eq (spaced_strict hp).consumes, h1]
        have hl := (spaced_strict hp).ne h1
        have hne : r' ≠ w ++ (t ++ (w' ++ ([] ++ r))) := by intro hc; rw [← hc] at hl; omega
        simp only [hne, if_false]
        rw [many0_eq (spaced_strict hp).consumes, hend']
        rfl
      | @cons a₂ as₂ t₂ w₂ ts₂ ha₂ hw₂ hts₂ =>
        have hsol : Solid (t₂ ++ (w₂ ++ ts₂) ++ r) := by rw [List.append_assoc]; exact start _ _ _ ha₂
        have h1 : delimited cos0 p cos0 (w ++ (t ++ (w' ++ (t₂ ++ (w₂ ++ ts₂) ++ r)))) =
            some (t₂ ++ (w₂ ++ ts₂) ++ r, a) :=
          delimited_eq (cos0_skip hw (start _ _ _ ha)) (item _ _ _ ha hq1) (cos0_skip hw' hsol)
        rw [many0_eq (spaced_strict hp).consumes, h1]
        have hl := (spaced_strict hp).ne h1
        have hne : t₂ ++ (w₂ ++ ts₂) ++ r ≠ w ++ (t ++ (w' ++ (t₂ ++ (w₂ ++ ts₂) ++ r))) := by
          intro hc; rw [← hc] at hl; omega
        simp only [hne, if_false]
        have := ih [] .nil (by simpa using hq2) (by simp)
        rw [List.nil_append] at this
        rw [this]
        rfl
  by_cases hne : as = []
  · subst hne
    cases h
    rw [hend'' rfl, if_pos rfl]
    show many0 _ r = _
    rw [many0_eq (spaced_strict hp).consumes, hend]
  · rw [if_neg hne]
    exact key as t h w hw hq hne

end Butte.Parse
