import Verif.Src.Spell
import Verif.Ir.SchemaSpec
/-
What is written can be read: lemmas.
-/
namespace Butte.Src
open Parse (digitsVal)
open Lex (startChar isSpace ends afterWord suffixOk)

theorem takeWhile_stops {p : Char → Bool} {a r : Str} (ha : ∀ c ∈ a, p c = true) (hr : ends p r = true) :
    (a ++ r).takeWhile p = a ∧ (a ++ r).dropWhile p = r := by
  induction a with
  | nil =>
    cases r with
    | nil => simp
    | cons c cs =>
      simp only [ends, Bool.not_eq_true'] at hr
      simp [hr]
  | cons c cs ih =>
    have hc := ha c List.mem_cons_self
    obtain ⟨h1, h2⟩ := ih fun d hd => ha d (List.mem_cons_of_mem _ hd)
    simp [List.takeWhile_cons, List.dropWhile_cons, hc, h1, h2]

theorem hexEscape_eq {ds : Str} (h : ∀ d ∈ ds, d.isDigit ∨ ('a' ≤ d ∧ d ≤ 'f') ∨ ('A' ≤ d ∧ d ≤ 'F')) (n : Nat) (r : Str) :
    Lex.hexEscape n (ds ++ '}' :: r) = some (ds.foldl (fun n c => n * 16 + Parse.digitVal c) n, r) := by
  induction ds generalizing n with
  | nil => simp [Lex.hexEscape]
  | cons d ds ih =>
    have hd := h d List.mem_cons_self
    have hne : d ≠ '}' := by
      rintro rfl
      revert hd
      decide
    rw [List.cons_append, Lex.hexEscape, if_neg hne, if_pos (by simpa [or_assoc] using hd), ih fun x hx => h x (List.mem_cons_of_mem _ hx)]
    rfl

theorem charText_read {c : Char} {t : Str} (h : CharText c t) (n : Nat) (r : Str) :
    Lex.string (n + 1) (t ++ r) = (Lex.string n r).map fun x => (c :: x.1, x.2) := by
  cases h with
  | plain _ h1 h2 h3 => simp [Lex.string, h1, h2, h3]
  | newline | «return» | tab | null | backslash | quote | apostrophe => simp [Lex.string]
  | unicode _ ds h0 h6 h hv =>
    have hc : c.toNat.isValidChar := c.valid
    have e : (c!"\\u{" ++ ds ++ c!"}") ++ r = '\\' :: 'u' :: '{' :: (ds ++ '}' :: r) := by simp
    rw [e]
    simp only [Lex.string]
    rw [hexEscape_eq h]
    have hv' : List.foldl (fun n c => n * 16 + Parse.digitVal c) 0 ds = c.toNat := hv
    have h0' : 0 < ds.length := List.length_pos_iff.mpr h0
    have e1 : 2 ≤ (ds ++ '}' :: r).length - r.length := by simp; omega
    have e2 : (ds ++ '}' :: r).length - r.length ≤ 7 := by simp; omega
    simp only [hv', Option.bind_eq_bind, Option.bind_some, hc, decide_true, e1, e2, Bool.and_self, if_true, Char.ofNat_toNat]
    rfl

theorem bodyText_read {s x : Str} (h : BodyText s x) (r : Str) : ∀ n, s.length < n → Lex.string n (x ++ '"' :: r) = some (s, r) := by
  induction h with
  | nil =>
    intro n hn
    obtain ⟨n, rfl⟩ : ∃ m, n = m + 1 := ⟨n - 1, by simp at hn; omega⟩
    simp [Lex.string]
  | cons h _ ih =>
    intro n hn
    obtain ⟨n, rfl⟩ : ∃ m, n = m + 1 := ⟨n - 1, by simp at hn; omega⟩
    rw [List.append_assoc, charText_read h, ih n (by simp at hn; omega)]
    rfl

theorem bodyText_length {s x : Str} (h : BodyText s x) : s.length ≤ x.length := by
  induction h with
  | nil => simp
  | cons h _ ih =>
    cases h <;> simp <;> omega

theorem wordChar_start {c : Char} (h : startChar c = true) : wordChar c = true := by
  simp only [startChar, wordChar, Bool.or_eq_true, Char.isAlphanum] at h ⊢
  rcases h with h | h
  · exact .inl (.inl h)
  · exact .inr h

theorem startChar_digit {c : Char} (h : startChar c = true) : c.isDigit = false := by
  simp only [startChar, Bool.or_eq_true, Char.isAlpha, Char.isUpper, Char.isLower, Char.isDigit, beq_iff_eq, decide_eq_true_eq,
    Bool.and_eq_true, ge_iff_le, Bool.and_eq_false_iff, decide_eq_false_iff_not] at h ⊢
  rcases h with (h | h) | rfl
  · right; have := h.1; rw [UInt32.le_iff_toNat_le] at *; simp at *; omega
  · right; have := h.1; rw [UInt32.le_iff_toNat_le] at *; simp at *; omega
  · right; decide

theorem isSpace_word {c : Char} (h : wordChar c = true) : isSpace c = false := by
  have : 48 ≤ c.toNat ∧ c.toNat ≤ 122 := by
    simp only [wordChar, Char.isAlphanum, Bool.or_eq_true, Char.isAlpha, Char.isUpper, Char.isLower, Char.isDigit, beq_iff_eq, decide_eq_true_eq,
      Bool.and_eq_true, ge_iff_le] at h
    rcases h with (((h | h) | h) | rfl)
    · rw [UInt32.le_iff_toNat_le, UInt32.le_iff_toNat_le] at h; simp at h; omega
    · rw [UInt32.le_iff_toNat_le, UInt32.le_iff_toNat_le] at h; simp at h; omega
    · rw [UInt32.le_iff_toNat_le, UInt32.le_iff_toNat_le] at h; simp at h; omega
    · decide
  simp [isSpace]
  omega

theorem ends_word_digit {r : Str} (h : ends wordChar r = true) : ends Char.isDigit r = true := by
  cases r with
  | nil => rfl
  | cons c cs =>
    simp only [ends, wordChar, Char.isAlphanum, Bool.not_eq_true', Bool.or_eq_false_iff] at h ⊢
    exact h.1.2

/-- A number and its suffix. -/
theorem number_read {ip s r : Str} {fp : Option Str} (h : Decimals ip) (hf : ∀ x ∈ fp, Decimals x) (hs : wordOk s = true)
    (ho : suffixOk ip s = true) (hr : ends wordChar r = true ∧ afterWord r = true) :
    ∃ c y, ip = c :: y ∧ isSpace c = false ∧
      Lex.one (ip ++ (pointText fp ++ (s ++ r))) = some (.num ip fp s, r) := by
  cases ip with
  | nil => exact absurd rfl h.1
  | cons c cs =>
    have hc := h.2 c List.mem_cons_self
    have hcs : ∀ d ∈ cs, d.isDigit = true := fun d hd => h.2 d (List.mem_cons_of_mem _ hd)
    have hw : wordChar c = true := by simp [wordChar, Char.isAlphanum, hc]
    have hnot : startChar c = false := by
      cases e : startChar c with
      | false => rfl
      | true => rw [startChar_digit e] at hc; cases hc
    refine ⟨c, cs, rfl, isSpace_word hw, ?_⟩
    cases s with
    | nil => cases hs
    | cons k ks =>
      simp only [wordOk, Bool.and_eq_true, List.all_eq_true] at hs
      have hkd := startChar_digit hs.1
      have hall : ∀ d ∈ k :: ks, wordChar d = true := by
        intro d hd
        rcases List.mem_cons.mp hd with rfl | hd
        · exact wordChar_start hs.1
        · exact hs.2 d hd
      obtain ⟨w1, w2⟩ := takeWhile_stops hall hr.1
      have hk : ends Char.isDigit ((k :: ks) ++ r) = true := by simp [ends, hkd]
      have hdot : k ≠ '.' := by rintro rfl; exact absurd hs.1 (by decide)
      have hfrac : ∀ (fp : Option Str) (_ : ∀ x ∈ fp, Decimals x),
          ends Char.isDigit (pointText fp ++ ((k :: ks) ++ r)) = true ∧
          Lex.fraction (pointText fp ++ ((k :: ks) ++ r)) = (fp, (k :: ks) ++ r) := by
        intro fp hf
        cases fp with
        | none =>
          refine ⟨hk, ?_⟩
          simp only [pointText, List.nil_append, List.cons_append]
          unfold Lex.fraction
          split
          · rename_i e; injection e with e; exact absurd e hdot
          · rfl
        | some x =>
          refine ⟨rfl, ?_⟩
          have hx := hf x rfl
          cases x with
          | nil => exact absurd rfl hx.1
          | cons d ds =>
            obtain ⟨t1, t2⟩ := takeWhile_stops hx.2 hk
            have hd := hx.2 d List.mem_cons_self
            rw [List.cons_append] at t1 t2
            simp only [pointText, List.cons_append] at t1 t2 ⊢
            simp only [Lex.fraction, hd, if_true, t1, t2]
      obtain ⟨f1, f2⟩ := hfrac fp hf
      obtain ⟨d1, d2⟩ := takeWhile_stops hcs f1
      rw [List.cons_append]
      unfold Lex.one
      simp only [hnot, hc, Bool.false_eq_true, if_false, if_true, d1, d2, f2, w1, w2, ho, hr.2, Bool.and_self, ne_eq, reduceCtorEq,
        not_false_eq_true, decide_true, Bool.true_or]

/-- What a token begins with, and how it is read. -/
theorem tokText_read {t : Tok} {x r : Str} (h : TokText t x) (hs : Stops t r) :
    ∃ c y l, x = c :: y ∧ isSpace c = false ∧ Lex.one (x ++ r) = some (l, r) ∧ Denotes l t := by
  cases h with
  | ident s h =>
    cases x with
    | nil => cases h
    | cons c cs =>
      simp only [wordOk, Bool.and_eq_true, List.all_eq_true] at h
      obtain ⟨e1, e2⟩ := takeWhile_stops h.2 hs.1
      refine ⟨c, cs, _, rfl, isSpace_word (wordChar_start h.1), ?_, .ident _⟩
      rw [List.cons_append]
      unfold Lex.one
      simp only [h.1, if_true, e1, e2, hs.2]
  | life s h =>
    cases s with
    | nil => cases h
    | cons c cs =>
      simp only [wordOk, Bool.and_eq_true, List.all_eq_true] at h
      obtain ⟨e1, e2⟩ := takeWhile_stops h.2 hs.1
      refine ⟨_, _, _, rfl, by decide, ?_, .life _⟩
      rw [List.cons_append, List.cons_append]
      unfold Lex.one
      dsimp only
      rw [if_neg (by decide), if_neg (by decide), if_pos rfl]
      simp only [e1, e2, h.1, hs.2, Bool.and_self, if_true]
  | str h =>
    rename_i s x
    refine ⟨_, _, _, rfl, by decide, ?_, .str _⟩
    have e : ('"' :: (x ++ c!"\"")) ++ r = '"' :: (x ++ '"' :: r) := by simp
    rw [e]
    unfold Lex.one
    dsimp only
    rw [if_neg (by decide), if_neg (by decide), if_neg (by decide), if_pos rfl,
      bodyText_read h r _ (by have := bodyText_length h; simp; omega)]
    simp only [Stops] at hs
    simp [hs]
  | opn d => cases d <;> exact ⟨_, _, _, rfl, by decide, rfl, .opn _⟩
  | cls d => cases d <;> exact ⟨_, _, _, rfl, by decide, rfl, .cls _⟩
  | punct p =>
    cases p <;> refine ⟨_, _, _, rfl, by decide, ?_, .punct _⟩ <;>
      simp only [Punct.text, List.cons_append, List.nil_append] <;> cases r <;>
      simp_all [Lex.one, Lex.bracket, Lex.sign, Stops, ends, startChar]
  | int ip s h hs' ho =>
    obtain ⟨c, y, e, hc, hl⟩ := number_read (fp := none) h (by simp) hs' ho hs
    refine ⟨c, y ++ s, _, by rw [e]; rfl, hc, ?_, .int ip s⟩
    rw [List.append_assoc]
    exact hl
  | float ip fp b s h hf hs' ho hd =>
    obtain ⟨c, y, e, hc, hl⟩ := number_read (fp := fp) h hf hs' ho hs
    refine ⟨c, y ++ (pointText fp ++ s), _, by rw [e]; rfl, hc, ?_, hd⟩
    rw [List.append_assoc, List.append_assoc]
    exact hl

theorem all_space {w : Str} (h : ∀ c ∈ w, isSpace c = true) (r : Str) (n : Nat) :
    Lex.all (w.length + n) (w ++ r) = Lex.all n r := by
  induction w with
  | nil => simp
  | cons c cs ih =>
    have e : (c :: cs).length + n = (cs.length + n) + 1 := by simp; omega
    rw [e, List.cons_append, Lex.all, if_pos (h c List.mem_cons_self), ih fun d hd => h d (List.mem_cons_of_mem _ hd)]

/-- More fuel does no harm. -/
theorem all_more : ∀ (n : Nat) (s : Str) (ls : List Lexeme), Lex.all n s = some ls → ∀ m, n ≤ m → Lex.all m s = some ls
  | 0, _, _, h, _, _ => by cases h
  | n + 1, [], ls, h, m, hm => by
    obtain ⟨m, rfl⟩ : ∃ k, m = k + 1 := ⟨m - 1, by omega⟩
    exact h
  | n + 1, c :: cs, ls, h, m, hm => by
    obtain ⟨m, rfl⟩ : ∃ k, m = k + 1 := ⟨m - 1, by omega⟩
    rw [Lex.all] at h ⊢
    split
    · rename_i hc
      rw [if_pos hc] at h
      exact all_more n cs ls h m (by omega)
    · rename_i hc
      rw [if_neg hc] at h
      simp only [Option.bind_eq_bind, Option.bind_eq_some_iff, pure, Option.some.injEq] at h ⊢
      obtain ⟨x, h1, ys, h2, h3⟩ := h
      exact ⟨x, h1, ys, all_more n _ ys h2 m (by omega), h3⟩

/-- What is written is read: lexemes that are the tokens. -/
theorem spelled_read {ts : Toks} {s : Str} (h : Spelled ts s) : ∃ ls, lex s = some ls ∧ Ir.All₂ Denotes ls ts := by
  have key : ∃ ls, Lex.all (s.length + 1) s = some ls ∧ Ir.All₂ Denotes ls ts := by
    induction h with
    | @nil w h =>
      refine ⟨[], ?_, .nil⟩
      have := all_space h [] 1
      rw [List.append_nil] at this
      rw [this]
      rfl
    | @cons t ts w x r hw ht hs _ ih =>
      obtain ⟨ls, h1, h2⟩ := ih
      obtain ⟨c, y, l, rfl, hc, ho, hd⟩ := tokText_read ht hs
      refine ⟨l :: ls, ?_, .cons hd h2⟩
      have e : (w ++ (c :: y ++ r)).length + 1 = w.length + ((y ++ r).length + 1 + 1) := by simp; omega
      rw [e, all_space hw, List.cons_append, Lex.all, if_neg (by simp [hc])]
      rw [List.cons_append] at ho
      rw [ho]
      have := all_more _ _ _ h1 ((y ++ r).length + 1) (by simp)
      simp only [Option.bind_eq_bind, Option.bind_some, this]
      rfl
  exact key

end Butte.Src
