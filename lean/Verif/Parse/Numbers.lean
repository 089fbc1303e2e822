import Verif.Parse.Tokens
/-
Reading numbers, truth values and strings.
-/
namespace Butte.Parse

open Ast

variable [Env]

/-! ### The words `nan`, `inf` and `infinity` -/

theorem wordAt_spec {w i : Str} (h : wordAt w i = true) :
    ∃ b, i = w ++ b ∧ ∀ c, b.head? = some c → Env.word c = false := by
  unfold wordAt at h
  rw [Bool.and_eq_true, List.isPrefixOf_iff_prefix] at h
  obtain ⟨⟨b, rfl⟩, h2⟩ := h
  refine ⟨b, rfl, fun c hc => ?_⟩
  rw [List.drop_left] at h2
  cases b with
  | nil => cases hc
  | cons d b => cases hc; simpa using h2

theorem hasWordFrom_spec {w : Str} : ∀ (i : Str) (before : Bool), hasWordFrom w before i = true →
    ∃ a b, i = a ++ (w ++ b) ∧ (a = [] → before = false) ∧ (∀ c, a.getLast? = some c → Env.word c = false) ∧
      ∀ c, b.head? = some c → Env.word c = false
  | [], _, h => by cases h
  | d :: i, before, h => by
    rw [hasWordFrom, Bool.or_eq_true, Bool.and_eq_true] at h
    rcases h with ⟨h1, h2⟩ | h
    · obtain ⟨b, e, hb⟩ := wordAt_spec h2
      refine ⟨[], b, by simpa using e, fun _ => by simpa using h1, fun c hc => (by cases hc), hb⟩
    · obtain ⟨a, b, rfl, h1, h2, h3⟩ := hasWordFrom_spec i _ h
      refine ⟨d :: a, b, rfl, fun hc => (by cases hc), fun c hc => ?_, h3⟩
      cases a with
      | nil => cases hc; exact h1 rfl
      | cons e a => exact h2 c (by rw [List.getLast?_cons_cons] at hc; exact hc)

theorem NoSpecial.hasWord {i : Str} (h : NoSpecial i) {w : Str} (hw : w ∈ [c!"nan", c!"inf", c!"infinity"]) :
    hasWord w i = false := by
  cases e : Parse.hasWord w i with
  | false => rfl
  | true =>
    obtain ⟨a, b, rfl, -, h2, h3⟩ := hasWordFrom_spec _ _ e
    rcases h w hw a b rfl with ⟨c, hc, hw⟩ | ⟨c, hc, hw⟩
    · rw [h2 c hc] at hw; cases hw
    · rw [h3 c hc] at hw; cases hw

omit [Env] in
theorem sign_cases (i : Str) :
    (∃ c r, i = c :: r ∧ (c = '-' ∨ c = '+') ∧ opt plusOrMinus i = some (r, some c)) ∨
    opt plusOrMinus i = some (i, none) := by
  cases i with
  | nil => right; rfl
  | cons c r =>
    by_cases hc : c = '-' ∨ c = '+'
    · left
      refine ⟨c, r, rfl, hc, opt_some (satisfy_eq ?_)⟩
      rcases hc with rfl | rfl <;> rfl
    · right
      exact opt_none (satisfy_none (by simpa using hc))

theorem word_sign {c : Char} (h : c = '-' ∨ c = '+') : Env.word c = false := by
  rcases h with rfl | rfl <;> rw [Env.word_ascii _ (by decide)] <;> decide

theorem NoSpecial.afterSign {i r : Str} {o : Option Char} (h : NoSpecial i)
    (e : opt plusOrMinus i = some (r, o)) : NoSpecial r := by
  rcases sign_cases i with ⟨c, s, rfl, hc, e'⟩ | e'
  · rw [e] at e'
    cases e'
    exact h.drop (s := [c]) (cut_snoc [] (word_sign hc))
  · rw [e] at e'
    cases e'
    exact h

omit [Env] in
theorem reMatch_none {f : Str → Bool} {i : Str} (h : f i = false) : reMatch f i = none := by
  unfold reMatch; rw [h]; rfl

theorem special_none {i : Str} (h : NoSpecial i) : specialFloatConstant i = none := by
  have hs : ∃ r o, opt plusOrMinus i = some (r, o) := by
    rcases sign_cases i with ⟨c, s, -, -, e⟩ | e
    · exact ⟨_, _, e⟩
    · exact ⟨_, _, e⟩
  obtain ⟨r, o, e⟩ := hs
  have hr := h.afterSign e
  unfold specialFloatConstant
  rw [alt_right]
  · refine map_none (terminated_none_right e (reMatch_none ?_))
    rw [hr.hasWord (by simp), hr.hasWord (by simp)]
    rfl
  · exact map_none (terminated_none_right e (reMatch_none (hr.hasWord (by simp))))

/-! ### Signs and digits -/

omit [Env] in
/-- No sign begins here. -/
def NoSign (t : Str) : Prop := Stops (fun c => (c!"-+").contains c) t

omit [Env] in
theorem opt_sign {neg : Bool} {sg : Str} (h : Sign neg sg) :
    ∃ o : Option Char, (o = some '-' ↔ neg = true) ∧ ∀ t, NoSign t → opt plusOrMinus (sg ++ t) = some (t, o) := by
  cases h with
  | none =>
    refine ⟨none, by simp, fun t ht => ?_⟩
    cases t with
    | nil => rfl
    | cons c t => exact opt_none (satisfy_none (ht c t rfl))
  | plus => exact ⟨some '+', by simp, fun t _ => rfl⟩
  | minus => exact ⟨some '-', by simp, fun t _ => rfl⟩

omit [Env] in
theorem digit_ne {c : Char} (h : c.isDigit = true) (d : Char) (hd : d.isDigit = false := by decide) : c ≠ d := by
  rintro rfl
  rw [h] at hd
  cases hd

omit [Env] in
theorem hexDigit_ne {c : Char} (h : isHexDigit c = true) (d : Char) (hd : isHexDigit d = false := by decide) :
    c ≠ d := by
  rintro rfl
  rw [h] at hd
  cases hd

omit [Env] in
theorem noSign_cons {c : Char} {t : Str} (h1 : c ≠ '-') (h2 : c ≠ '+') : NoSign (c :: t) := by
  intro d s e
  cases e
  simp [h1, h2]

omit [Env] in
theorem noSign_digits {ds : Str} (h : Digits ds) (hne : ds ≠ []) (t : Str) : NoSign (ds ++ t) := by
  cases ds with
  | nil => exact absurd rfl hne
  | cons c ds =>
    have := h c List.mem_cons_self
    exact noSign_cons (digit_ne this _) (digit_ne this _)

omit [Env] in
theorem digit1_eq {ds r : Str} (h : Digits ds) (hne : ds ≠ []) (hr : Stops isDigit r) :
    digit1 (ds ++ r) = some (r, ds) := takeWhile1_eq hne h hr

omit [Env] in
theorem digit0_eq {ds r : Str} (h : Digits ds) (hr : Stops isDigit r) : digit0 (ds ++ r) = some (r, ds) :=
  takeWhile_eq h hr

omit [Env] in
theorem hexDigit1_eq {ds r : Str} (h : HexDigits ds) (hne : ds ≠ []) (hr : Stops isHexDigit r) :
    hexDigit1 (ds ++ r) = some (r, ds) := takeWhile1_eq hne h hr

omit [Env] in
theorem Delim.char {r : Str} (h : Delim r) (c : Char) (hc : c ∉ delims := by decide) : Parse.char c r = none := by
  obtain ⟨d, t, rfl, hd⟩ := h
  exact char_none (by rintro rfl; exact hc hd)

omit [Env] in
theorem Delim.oneOf {r : Str} (h : Delim r) (l : Str) (hl : ∀ c ∈ delims, l.contains c = false := by decide) :
    Parse.oneOf l r = none := by
  obtain ⟨d, t, rfl, hd⟩ := h
  exact satisfy_none (hl d hd)

omit [Env] in
/-- `0x` does not begin here. -/
theorem hexMark_none {ds r : Str} (h : Digits ds) (hr : ∃ c t, r = c :: t ∧ c ≠ '0' ∧ c ≠ 'x' ∧ c ≠ 'X') :
    ∀ {α : Type} (p : P α), preceded (char '0') (preceded (oneOf c!"xX") p) (ds ++ r) = none := by
  intro α p
  obtain ⟨c, t, rfl, h0, hx, hX⟩ := hr
  cases ds with
  | nil => exact preceded_none_left (char_none h0)
  | cons d ds =>
    by_cases hd : d = '0'
    · subst hd
      refine preceded_none_right (char_eq _ _) (preceded_none_left ?_)
      cases ds with
      | nil => exact satisfy_none (by simp [hx, hX])
      | cons e ds =>
        have he := h e (by simp)
        exact satisfy_none (by simp [digit_ne he 'x', digit_ne he 'X'])
    · exact preceded_none_left (char_none hd)

omit [Env] in
theorem hexMark_none' {ds r : Str} (h : Digits ds) (hr : ∃ c t, r = c :: t ∧ c ≠ '0' ∧ c ≠ 'x' ∧ c ≠ 'X') :
    terminated (char '0') (oneOf c!"xX") (ds ++ r) = none := by
  obtain ⟨c, t, rfl, h0, hx, hX⟩ := hr
  cases ds with
  | nil => exact terminated_none_left (char_none h0)
  | cons d ds =>
    by_cases hd : d = '0'
    · subst hd
      refine terminated_none_right (char_eq _ _) ?_
      cases ds with
      | nil => exact satisfy_none (by simp [hx, hX])
      | cons e ds =>
        have he := h e (by simp)
        exact satisfy_none (by simp [digit_ne he 'x', digit_ne he 'X'])
    · exact terminated_none_left (char_none hd)

omit [Env] in
theorem Delim.hexMark {r : Str} (h : Delim r) : ∃ c t, r = c :: t ∧ c ≠ '0' ∧ c ≠ 'x' ∧ c ≠ 'X' := by
  obtain ⟨c, t, rfl, hc⟩ := h
  refine ⟨c, t, rfl, ?_, ?_, ?_⟩ <;> · rintro rfl; revert hc; decide

theorem hexFloat_none {neg : Bool} {sg u : Str} (hs : Sign neg sg) (hu : NoSign u)
    (h : terminated (char '0') (oneOf c!"xX") u = none) : hexFloatConstant (sg ++ u) = none := by
  obtain ⟨o, -, ho⟩ := opt_sign hs
  exact map_none (pair_none_left (terminated_none_right (ho u hu) h))

/-! ### Integers -/

omit [Env] in
theorem i128FromStr_plus (ds : Str) :
    i128FromStr ('+' :: ds) = if inI128 (digitsVal 10 ds) then some (digitsVal 10 ds : Int) else none := by
  generalize hx : ('+' :: ds : Str) = x
  unfold i128FromStr
  split
  · rename_i e; exact absurd (List.cons.inj hx).1 (by decide)
  · rename_i e; rw [(List.cons.inj hx).2]
  · rename_i h; exact absurd hx.symm (h ds)

omit [Env] in
theorem i128FromStr_eq {neg : Bool} {sg ds : Str} (hs : Sign neg sg) (hd : Digits ds) (hne : ds ≠ [])
    (h1 : -(2 ^ 127) ≤ signed neg (digitsVal 10 ds)) (h2 : signed neg (digitsVal 10 ds) < 2 ^ 127) :
    i128FromStr (sg ++ ds) = some (signed neg (digitsVal 10 ds)) := by
  have hb : inI128 (signed neg (digitsVal 10 ds)) = true := by
    unfold inI128; simp only [h1, h2, decide_true, Bool.and_self]
  cases hs with
  | none =>
    cases ds with
    | nil => exact absurd rfl hne
    | cons c ds =>
      have hc := hd c List.mem_cons_self
      rw [List.nil_append]
      unfold i128FromStr
      split
      · rename_i e; cases e; exact absurd rfl (digit_ne hc '-')
      · rename_i e; cases e; exact absurd rfl (digit_ne hc '+')
      · exact if_pos hb
  | plus => rw [show ['+'] ++ ds = '+' :: ds from rfl, i128FromStr_plus]; exact if_pos hb
  | minus => exact if_pos hb

omit [Env] in
theorem i128FromStr_none {neg : Bool} {sg ds : Str} (hs : Sign neg sg) (hd : Digits ds) (hne : ds ≠ [])
    (h : ¬ (-(2 ^ 127) ≤ signed neg (digitsVal 10 ds) ∧ signed neg (digitsVal 10 ds) < 2 ^ 127)) :
    i128FromStr (sg ++ ds) = none := by
  have hb : ¬ inI128 (signed neg (digitsVal 10 ds)) = true := by
    unfold inI128; simp only [Bool.and_eq_true, decide_eq_true_eq]; exact h
  cases hs with
  | none =>
    cases ds with
    | nil => exact absurd rfl hne
    | cons c ds =>
      have hc := hd c List.mem_cons_self
      rw [List.nil_append]
      unfold i128FromStr
      split
      · rename_i e; cases e; exact absurd rfl (digit_ne hc '-')
      · rename_i e; cases e; exact absurd rfl (digit_ne hc '+')
      · exact if_neg hb
  | plus => rw [show ['+'] ++ ds = '+' :: ds from rfl, i128FromStr_plus]; exact if_neg hb
  | minus => exact if_neg hb

omit [Env] in
/-- What `dec_integer_constant` recognises. -/
theorem decInteger_recognize {neg : Bool} {sg ds r : Str} (hs : Sign neg sg) (hd : Digits ds) (hne : ds ≠ [])
    (hr : Stops isDigit r) :
    recognize (preceded (opt plusOrMinus) digit1) (sg ++ (ds ++ r)) = some (r, sg ++ ds) := by
  obtain ⟨o, -, ho⟩ := opt_sign hs
  rw [← List.append_assoc]
  refine recognize_eq (preceded_eq (a := o) ?_ (digit1_eq hd hne hr))
  rw [List.append_assoc]
  exact ho _ (noSign_digits hd hne _)

omit [Env] in
theorem decInteger_eq {neg : Bool} {sg ds r : Str} (hs : Sign neg sg) (hd : Digits ds) (hne : ds ≠ [])
    (hr : Stops isDigit r)
    (h1 : -(2 ^ 127) ≤ signed neg (digitsVal 10 ds)) (h2 : signed neg (digitsVal 10 ds) < 2 ^ 127) :
    decIntegerConstant (sg ++ (ds ++ r)) = some (r, signed neg (digitsVal 10 ds)) :=
  mapRes_eq (decInteger_recognize hs hd hne hr) (i128FromStr_eq hs hd hne h1 h2)

omit [Env] in
theorem hexInteger_dec {neg : Bool} {sg ds r : Str} (hs : Sign neg sg) (hd : Digits ds) (hne : ds ≠ [])
    (hr : ∃ c t, r = c :: t ∧ c ≠ '0' ∧ c ≠ 'x' ∧ c ≠ 'X') : hexIntegerConstant (sg ++ (ds ++ r)) = none := by
  obtain ⟨o, -, ho⟩ := opt_sign hs
  exact mapRes_none (pair_none_right (ho _ (noSign_digits hd hne _)) (hexMark_none hd hr _))

omit [Env] in
theorem hexInteger_pair {neg : Bool} {sg ds r : Str} {x : Char} (hs : Sign neg sg) (hx : x = 'x' ∨ x = 'X')
    (hd : HexDigits ds) (hne : ds ≠ []) (hr : Stops isHexDigit r) :
    ∃ o : Option Char, (o = some '-' ↔ neg = true) ∧
      pair (opt plusOrMinus) (preceded (char '0') (preceded (oneOf c!"xX") hexDigit1)) (sg ++ '0' :: x :: (ds ++ r)) =
        some (r, (o, ds)) := by
  obtain ⟨o, h1, ho⟩ := opt_sign hs
  refine ⟨o, h1, pair_eq (ho _ (noSign_cons (by decide) (by decide))) (preceded_eq (char_eq _ _)
    (preceded_eq (satisfy_eq ?_) (hexDigit1_eq hd hne hr)))⟩
  rcases hx with rfl | rfl <;> rfl

omit [Env] in
theorem hexInteger_eq {neg : Bool} {sg ds r : Str} {x : Char} (hs : Sign neg sg) (hx : x = 'x' ∨ x = 'X')
    (hd : HexDigits ds) (hne : ds ≠ []) (hr : Stops isHexDigit r) (h : digitsVal 16 ds < 2 ^ 127) :
    hexIntegerConstant (sg ++ '0' :: x :: (ds ++ r)) = some (r, signed neg (digitsVal 16 ds)) := by
  obtain ⟨o, h1, ho⟩ := hexInteger_pair hs hx hd hne hr
  refine mapRes_eq ho ?_
  have hb : inI128 (digitsVal 16 ds : Int) = true := by
    unfold inI128
    have : (-(2 ^ 127) : Int) ≤ (digitsVal 16 ds : Int) := by omega
    have h2 : (digitsVal 16 ds : Int) < 2 ^ 127 := by omega
    simp only [this, h2, decide_true, Bool.and_self]
  have hb' : inI128 (-(digitsVal 16 ds : Int)) = true := by
    unfold inI128
    have : (-(2 ^ 127) : Int) ≤ -(digitsVal 16 ds : Int) := by omega
    have h2 : -(digitsVal 16 ds : Int) < 2 ^ 127 := by omega
    simp only [this, h2, decide_true, Bool.and_self]
  simp only [hb, hb', if_true]
  cases neg with
  | true => rw [if_pos (h1.mpr rfl)]; rfl
  | false => rw [if_neg (fun hc => by cases h1.mp hc)]; rfl

omit [Env] in
theorem integerConstant_eq {i : Int} {t r : Str} (h : IntText i t) (hr : Delim r) :
    integerConstant (t ++ r) = some (r, i) := by
  unfold integerConstant
  cases h with
  | @dec neg sg ds hs hd hne h1 h2 =>
    rw [List.append_assoc, alt_right (hexInteger_dec hs hd hne hr.hexMark)]
    exact decInteger_eq hs hd hne hr.stopsDigit h1 h2
  | @hex neg sg ds x hs hx hd hne h =>
    have e : sg ++ '0' :: x :: ds ++ r = sg ++ '0' :: x :: (ds ++ r) := by simp
    rw [e]
    exact alt_left (hexInteger_eq hs hx hd hne hr.stopsHex h)

omit [Env] in
theorem decFloat_none {neg : Bool} {sg u : Str} (hs : Sign neg sg) (hu : NoSign u)
    (h1 : digit1 u = none ∨ ∃ r ds, digit1 u = some (r, ds) ∧ char '.' r = none ∧ oneOf c!"eE" r = none)
    (h2 : char '.' u = none) : decFloatConstant (sg ++ u) = none := by
  obtain ⟨o, -, ho⟩ := opt_sign hs
  refine mapRes_none (recognize_none (preceded_none_right (ho u hu) ?_))
  rcases h1 with h1 | ⟨r, ds, h1, h3, h4⟩
  · rw [alt_right]
    · exact terminated_none_left h1
    · refine terminated_none_left ?_
      rw [alt_right (terminated_none_left h1)]
      exact preceded_none_left h2
  · rw [alt_right]
    · exact terminated_none_right h1 (recognize_none (pair_none_left h4))
    · refine terminated_none_left ?_
      rw [alt_right (terminated_none_right h1 (terminated_none_left h3))]
      exact preceded_none_left h2

/-- Integers are not floats. -/
theorem floatConstant_int {i : Int} {t r : Str} (h : IntText i t) (hr : Delim r) (hq : NoSpecial (t ++ r)) :
    floatConstant (t ++ r) = none := by
  unfold floatConstant
  rw [alt_right (special_none hq)]
  cases h with
  | @dec neg sg ds hs hd hne h1 h2 =>
    rw [List.append_assoc, alt_right]
    · refine decFloat_none hs (noSign_digits hd hne _)
        (.inr ⟨r, ds, digit1_eq hd hne hr.stopsDigit, hr.char '.', hr.oneOf _⟩) ?_
      cases ds with
      | nil => exact absurd rfl hne
      | cons c ds => exact char_none (digit_ne (hd c List.mem_cons_self) '.')
    · exact hexFloat_none hs (noSign_digits hd hne _) (hexMark_none' hd hr.hexMark)
  | @hex neg sg ds x hs hx hd hne h =>
    have e : sg ++ '0' :: x :: ds ++ r = sg ++ '0' :: x :: (ds ++ r) := by simp
    have hxo : oneOf c!"xX" (x :: (ds ++ r)) = some (ds ++ r, x) :=
      satisfy_eq (by rcases hx with rfl | rfl <;> rfl)
    have hn : NoSign ('0' :: x :: (ds ++ r)) := noSign_cons (by decide) (by decide)
    rw [e, alt_right]
    · refine decFloat_none hs hn (.inr ⟨x :: (ds ++ r), ['0'], ?_, ?_, ?_⟩) (char_none (by decide))
      · refine digit1_eq (ds := ['0']) (fun c hc => ?_) (by simp) ?_
        · rw [List.mem_singleton] at hc; subst hc; rfl
        · intro c t' e'; cases e'; rcases hx with rfl | rfl <;> rfl
      · exact char_none (by rcases hx with rfl | rfl <;> decide)
      · exact satisfy_none (by rcases hx with rfl | rfl <;> rfl)
    · obtain ⟨o, -, ho⟩ := opt_sign hs
      refine map_none (pair_none_right (terminated_eq (ho _ hn) (terminated_eq (char_eq _ _) hxo))
        (mapRes_none (recognize_none ?_)))
      have h1 := hexDigit1_eq hd hne hr.stopsHex
      rw [alt_right]
      · exact terminated_none_right h1 (recognize_none (terminated_none_left (hr.oneOf _)))
      · refine terminated_none_left ?_
        rw [alt_right (terminated_none_left (terminated_none_right h1 (hr.char '.')))]
        refine preceded_none_left ?_
        cases ds with
        | nil => exact absurd rfl hne
        | cons c ds => exact char_none (hexDigit_ne (hd c List.mem_cons_self) '.')

/-! ### Fractions -/

omit [Env] in
theorem Delim.exponent {r : Str} (h : Delim r) : decFloatExponent r = none :=
  recognize_none (pair_none_left (h.oneOf _))

omit [Env] in
theorem exponent_eq {e : Int} {et r : Str} (h : ExpText e et) (hr : Delim r) :
    decFloatExponent (et ++ r) = some (r, et) := by
  cases h with
  | @mk neg sg ds x hs hx hd hne =>
    obtain ⟨o, -, ho⟩ := opt_sign hs
    refine recognize_eq (a := (x, (o, ds))) (pair_eq (j := sg ++ (ds ++ r)) ?_ (pair_eq (ho _ (noSign_digits hd hne _))
      (digit1_eq hd hne hr.stopsDigit)))
    rw [List.cons_append, List.append_assoc]
    exact satisfy_eq (by rcases hx with rfl | rfl <;> rfl)

omit [Env] in
theorem expText_head {e : Int} {et r : Str} (h : ExpText e et) : ∃ c t, et ++ r = c :: t ∧ (c = 'e' ∨ c = 'E') := by
  cases h with
  | mk hs hx hd hne => exact ⟨_, _, rfl, hx⟩

omit [Env] in
theorem splitSign_eq {neg : Bool} {sg u : Str} (hs : Sign neg sg) (hu : NoSign u) :
    splitSign (sg ++ u) = (neg, u) := by
  cases hs with
  | none =>
    rw [List.nil_append]
    unfold splitSign
    split
    · rename_i e; have := hu _ _ rfl; simp at this
    · rename_i e; have := hu _ _ rfl; simp at this
    · rfl
  | plus => rfl
  | minus => rfl

omit [Env] in
theorem expOf_eq {e : Int} {et : Str} (h : ExpText e et) : expOf et = e := by
  cases h with
  | @mk neg sg ds x hs hx hd hne =>
    have := splitSign_eq hs (u := ds) (by have := noSign_digits hd hne []; simpa using this)
    rcases hx with rfl | rfl <;> · simp only [expOf, this]; cases neg <;> rfl

omit [Env] in
theorem digits_span {ip r : Str} (h : Digits ip) (hr : Stops isDigit r) :
    (ip ++ r).takeWhile isDigit = ip ∧ (ip ++ r).dropWhile isDigit = r := by
  have := takeWhile_eq h hr
  unfold takeWhile at this
  simp only [Option.some.injEq, Prod.mk.injEq] at this
  exact ⟨this.2, this.1⟩

omit [Env] in
theorem f64FromStr_eq {neg : Bool} {sg ip s fp e : Str} (hs : Sign neg sg) (hu : NoSign (ip ++ s)) (hi : Digits ip)
    (hst : Stops isDigit s) (hf : fracOf s = (fp, e)) :
    f64FromStr (sg ++ (ip ++ s)) = some (decF64 neg (digitsVal 10 (ip ++ fp)) (expOf e - fp.length)) := by
  unfold f64FromStr
  obtain ⟨h1, h2⟩ := digits_span hi hst
  rw [splitSign_eq hs hu]
  simp only [h1, h2, hf]

omit [Env] in
theorem stops_cons {f : Char → Bool} {c : Char} {t : Str} (h : f c = false) : Stops f (c :: t) := by
  intro d s e; cases e; exact h

omit [Env] in
theorem stops_nil {f : Char → Bool} : Stops f [] := by intro d s e; cases e

omit [Env] in
theorem stops_exp {e : Int} {et r : Str} (h : ExpText e et) : Stops isDigit (et ++ r) := by
  obtain ⟨c, t, e', hc⟩ := expText_head (r := r) h
  rw [e']
  exact stops_cons (by rcases hc with rfl | rfl <;> rfl)

omit [Env] in
theorem noSign_point {ip s : Str} (h : Digits ip) : NoSign (ip ++ '.' :: s) := by
  cases ip with
  | nil => exact noSign_cons (by decide) (by decide)
  | cons c ip => exact noSign_digits h (by simp) _

omit [Env] in
/-- The mantissa with a period. -/
theorem mantissa_eq {ip fp r : Str} (hi : Digits ip) (hf : Digits fp) (hne : ip ≠ [] ∨ fp ≠ [])
    (hr : Stops isDigit r) :
    ∃ a, alt (terminated digit1 (terminated (char '.') digit0)) (preceded (char '.') digit1) (ip ++ '.' :: (fp ++ r)) =
      some (r, a) := by
  by_cases hip : ip = []
  · subst hip
    refine ⟨fp, ?_⟩
    rw [alt_right]
    · exact preceded_eq (char_eq _ _) (digit1_eq hf (by tauto) hr)
    · exact terminated_none_left (takeWhile1_none (stops_cons rfl))
  · exact ⟨ip, alt_left (terminated_eq (digit1_eq hi hip (stops_cons rfl))
      (terminated_eq (char_eq _ _) (digit0_eq hf hr)))⟩

omit [Env] in
theorem decFloat_eq {b : Fin (2 ^ 64)} {t r : Str} (h : FloatText b t) (hr : Delim r) :
    decFloatConstant (t ++ r) = some (r, b) := by
  cases h with
  | @point neg sg ip fp hs hi hf hne =>
    obtain ⟨o, -, ho⟩ := opt_sign hs
    obtain ⟨a, ha⟩ := mantissa_eq hi hf hne hr.stopsDigit
    refine mapRes_eq (a := sg ++ (ip ++ '.' :: fp)) (recognize_eq (a := a) (preceded_eq (a := o)
      (j := ip ++ '.' :: (fp ++ r)) ?_ ?_)) ?_
    · have e : sg ++ (ip ++ '.' :: fp) ++ r = sg ++ (ip ++ '.' :: (fp ++ r)) := by simp
      rw [e]
      exact ho _ (noSign_point hi)
    · exact alt_left (terminated_eq ha (opt_none hr.exponent))
    · have := f64FromStr_eq (fp := fp) (e := []) hs (noSign_point (s := fp) hi) hi (stops_cons rfl)
        (by have := digits_span hf (r := []) stops_nil
            rw [List.append_nil] at this
            show (fp.takeWhile isDigit, fp.dropWhile isDigit) = _
            rw [this.1, this.2])
      rw [this]
      simp [expOf]
  | @pointExp neg sg ip fp et e hs hi hf hne he =>
    obtain ⟨o, -, ho⟩ := opt_sign hs
    obtain ⟨a, ha⟩ := mantissa_eq (r := et ++ r) hi hf hne (stops_exp he)
    refine mapRes_eq (a := sg ++ (ip ++ '.' :: (fp ++ et))) (recognize_eq (a := a) (preceded_eq (a := o)
      (j := ip ++ '.' :: (fp ++ (et ++ r))) ?_ ?_)) ?_
    · have e : sg ++ (ip ++ '.' :: (fp ++ et)) ++ r = sg ++ (ip ++ '.' :: (fp ++ (et ++ r))) := by simp
      rw [e]
      exact ho _ (noSign_point hi)
    · exact alt_left (terminated_eq ha (opt_some (exponent_eq he hr)))
    · have := f64FromStr_eq (fp := fp) (e := et) hs (noSign_point (s := fp ++ et) hi) hi (stops_cons rfl)
        (by have := digits_span hf (r := et) (by have := stops_exp (r := []) he; simpa using this)
            show ((fp ++ et).takeWhile isDigit, (fp ++ et).dropWhile isDigit) = _
            rw [this.1, this.2])
      rw [this, expOf_eq he]
  | @exp neg sg ip et e hs hi hne he =>
    obtain ⟨o, -, ho⟩ := opt_sign hs
    have hd := digit1_eq hi hne (stops_exp (r := r) he)
    obtain ⟨c, t, e', hc⟩ := expText_head (r := r) he
    refine mapRes_eq (a := sg ++ (ip ++ et)) (recognize_eq (a := ip) (preceded_eq (a := o)
      (j := ip ++ (et ++ r)) ?_ ?_)) ?_
    · have e : sg ++ (ip ++ et) ++ r = sg ++ (ip ++ (et ++ r)) := by simp
      rw [e]
      exact ho _ (noSign_digits hi hne _)
    · rw [alt_right]
      · exact terminated_eq hd (exponent_eq he hr)
      · refine terminated_none_left ?_
        rw [alt_right]
        · refine preceded_none_left ?_
          cases ip with
          | nil => exact absurd rfl hne
          | cons d ip => exact char_none (digit_ne (hi d List.mem_cons_self) '.')
        · refine terminated_none_right hd (terminated_none_left ?_)
          rw [e']
          exact char_none (by rcases hc with rfl | rfl <;> decide)
    · have hf : fracOf et = ([], et) := by
        obtain ⟨c, t, e', hc⟩ := expText_head (r := []) he
        rw [List.append_nil] at e'
        rw [e']
        rcases hc with rfl | rfl <;> rfl
      have := f64FromStr_eq hs (noSign_digits (t := et) hi hne) hi
        (by have := stops_exp (r := []) he; simpa using this) hf
      rw [this, expOf_eq he]
      simp

theorem floatConstant_eq {b : Fin (2 ^ 64)} {t r : Str} (h : FloatText b t) (hr : Delim r)
    (hq : NoSpecial (t ++ r)) : floatConstant (t ++ r) = some (r, b) := by
  unfold floatConstant
  rw [alt_right (special_none hq), alt_right, decFloat_eq h hr]
  cases h with
  | @point neg sg ip fp hs hi hf hne =>
    have e : sg ++ (ip ++ '.' :: fp) ++ r = sg ++ (ip ++ '.' :: (fp ++ r)) := by simp
    rw [e]
    exact hexFloat_none hs (noSign_point hi) (hexMark_none' hi ⟨_, _, rfl, by decide, by decide, by decide⟩)
  | @pointExp neg sg ip fp et e hs hi hf hne he =>
    have e : sg ++ (ip ++ '.' :: (fp ++ et)) ++ r = sg ++ (ip ++ '.' :: (fp ++ (et ++ r))) := by simp
    rw [e]
    exact hexFloat_none hs (noSign_point hi) (hexMark_none' hi ⟨_, _, rfl, by decide, by decide, by decide⟩)
  | @exp neg sg ip et e hs hi hne he =>
    have e : sg ++ (ip ++ et) ++ r = sg ++ (ip ++ (et ++ r)) := by simp
    rw [e]
    refine hexFloat_none hs (noSign_digits hi hne _) (hexMark_none' hi ?_)
    obtain ⟨c, t, e', hc⟩ := expText_head (r := r) he
    exact ⟨c, t, e', by rcases hc with rfl | rfl <;> decide, by rcases hc with rfl | rfl <;> decide,
      by rcases hc with rfl | rfl <;> decide⟩

/-! ### Scalars -/

theorem number_none {c : Char} {t : Str} (h1 : c ≠ '-') (h2 : c ≠ '+') (h3 : c ≠ '.') (h4 : c.isDigit = false)
    (hq : NoSpecial (c :: t)) : floatConstant (c :: t) = none ∧ integerConstant (c :: t) = none := by
  have hn : NoSign (c :: t) := noSign_cons h1 h2
  have h0 : c ≠ '0' := by rintro rfl; cases h4
  have hd : digit1 (c :: t) = none := takeWhile1_none (stops_cons h4)
  obtain ⟨o, -, ho⟩ := opt_sign .none
  constructor
  · unfold floatConstant
    rw [alt_right (special_none hq), alt_right]
    · exact decFloat_none (sg := []) .none hn (.inl hd) (char_none h3)
    · exact hexFloat_none (sg := []) .none hn (terminated_none_left (char_none h0))
  · unfold integerConstant
    rw [alt_right]
    · exact mapRes_none (recognize_none (preceded_none_right (ho _ hn) hd))
    · exact mapRes_none (pair_none_right (ho _ hn) (preceded_none_left (char_none h0)))

theorem boolWord_none {b : Bool} {w i : Str} (h : ¬ w <+: i) : boolWord b w i = none := by
  refine value_none ?_
  split
  · rfl
  · exact tag_none h

theorem boolWord_eq {b : Bool} {w r : Str} (hw : w ≠ []) (hr : Delim r) :
    boolWord b w (w ++ r) = some (r, b) := by
  refine value_eq (a := w) ?_
  have h1 : hasWord w (w ++ r) = true := by
    unfold hasWord
    cases w with
    | nil => exact absurd rfl hw
    | cons c w =>
      rw [List.cons_append, hasWordFrom]
      have : wordAt (c :: w) (c :: (w ++ r)) = true := by
        unfold wordAt
        rw [Bool.and_eq_true, List.isPrefixOf_iff_prefix, ← List.cons_append]
        refine ⟨⟨r, rfl⟩, ?_⟩
        rw [List.drop_left]
        obtain ⟨d, t, rfl, hd⟩ := hr
        simp [delim_word hd]
      rw [this]
      rfl
  unfold reMatch
  rw [if_pos h1]
  exact tag_eq w r

theorem scalar_none {c : Char} {t : Str} (h1 : c ≠ '-') (h2 : c ≠ '+') (h3 : c ≠ '.') (h4 : c.isDigit = false)
    (ht : ¬ c!"true" <+: c :: t) (hf : ¬ c!"false" <+: c :: t) (hq : NoSpecial (c :: t)) :
    scalar (c :: t) = none := by
  obtain ⟨h5, h6⟩ := number_none h1 h2 h3 h4 hq
  unfold scalar
  rw [alt_right (map_none h5), alt_right (map_none h6)]
  refine map_none ?_
  unfold booleanConstant
  rw [alt_right (boolWord_none ht)]
  exact boolWord_none hf

theorem scalar_eq {s : Scalar} {t r : Str} (h : ScalarText s t) (hr : Delim r) (hq : NoSpecial (t ++ r)) :
    scalar (t ++ r) = some (r, s) := by
  unfold scalar
  cases h with
  | integer h =>
    rw [alt_right (map_none (floatConstant_int h hr hq))]
    exact alt_left (map_eq (integerConstant_eq h hr))
  | float h => exact alt_left (map_eq (floatConstant_eq h hr hq))
  | true =>
    obtain ⟨h5, h6⟩ := number_none (c := 't') (t := c!"rue" ++ r) (by decide) (by decide) (by decide) (by decide) hq
    show alt _ _ ('t' :: (c!"rue" ++ r)) = _
    rw [alt_right (map_none h5), alt_right (map_none h6)]
    refine map_eq (alt_left ?_)
    exact boolWord_eq (w := c!"true") (by simp) hr
  | false =>
    obtain ⟨h5, h6⟩ := number_none (c := 'f') (t := c!"alse" ++ r) (by decide) (by decide) (by decide) (by decide) hq
    show alt _ _ ('f' :: (c!"alse" ++ r)) = _
    rw [alt_right (map_none h5), alt_right (map_none h6)]
    refine map_eq ?_
    unfold booleanConstant
    rw [alt_right (boolWord_none (by rintro ⟨s, hs⟩; cases hs))]
    exact boolWord_eq (w := c!"false") (by simp) hr

/-! ### Strings -/

omit [Env] in
theorem escapedGo_raw {s : Str} (h : RawText s) (r : Str) :
    escapedGo (fun c => !(c!"\\\"").contains c) '\\' (fun c => c == '\\' || c == '"') (s ++ '"' :: r) =
      some ('"' :: r) := by
  induction h with
  | nil =>
    cases r with
    | nil => rfl
    | cons d r => rfl
  | @plain c s h1 h2 hs ih =>
    obtain ⟨d, t, e⟩ : ∃ d t, s ++ '"' :: r = d :: t := by
      cases s with
      | nil => exact ⟨_, _, rfl⟩
      | cons d s => exact ⟨_, _, rfl⟩
    rw [e] at ih
    rw [List.cons_append, e, escapedGo, if_pos (by simp [h1, h2]), ih]
  | @escape c s hc hs ih =>
    rw [List.cons_append, List.cons_append, escapedGo, if_neg (by simp), if_pos rfl,
      if_pos (by rcases hc with rfl | rfl <;> rfl), ih]

omit [Env] in
theorem stringConstant_eq {s t r : Str} (h : StringText s t) : stringConstant (t ++ r) = some (r, s) := by
  obtain ⟨hs, rfl⟩ := h
  have e : '"' :: (s ++ ['"']) ++ r = '"' :: (s ++ '"' :: r) := by simp
  rw [e]
  refine map_eq (a := some s) (delimited_eq (char_eq _ _) (opt_some (a := s) (r := '"' :: r) ?_) (char_eq _ _))
  unfold escaped
  rw [escapedGo_raw hs]
  simp

theorem single_eq {s : Single} {t r : Str} (h : SingleText s t) (hr : Delim r) (hq : NoSpecial (t ++ r)) :
    single (t ++ r) = some (r, s) := by
  unfold single
  cases h with
  | scalar h => exact alt_left (map_eq (scalar_eq h hr hq))
  | @string s t h =>
    have h' := h
    obtain ⟨hs, rfl⟩ := h'
    rw [alt_right]
    · exact map_eq (stringConstant_eq h)
    · refine map_none ?_
      rw [List.cons_append] at hq ⊢
      exact scalar_none (by decide) (by decide) (by decide) (by decide) (by rintro ⟨s, hs⟩; cases hs)
        (by rintro ⟨s, hs⟩; cases hs) hq

end Butte.Parse
