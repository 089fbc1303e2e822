import Verif.Src.LexOk
import Verif.Rs.Eval
import Verif.Parse.Print
import Verif.Gen.DisplayOk
/-
Which tokens can be written, and one way to write them.
-/
namespace Butte.Src
open Parse (digitsVal)
open Lex (startChar isSpace ends afterWord suffixOk)

/-- A suffix that can be written after any number. -/
def suffixWord (s : Str) : Bool := wordOk s && suffixOk c!"0" s

/-- A token that can be written: names are in ASCII, floats are finite and have no sign of their own. -/
def TokOk : Tok → Prop
  | .ident s | .life s => wordOk s = true
  | .int _ s => suffixWord s = true
  | .float b s => suffixWord s = true ∧ f64Finite b.val = true ∧ b.val < 2 ^ 63
  | .str _ | .punct _ | .opn _ | .cls _ => True

/-- Tokens that can be written. -/
def Spellable (ts : Toks) : Prop := ∀ t ∈ ts, TokOk t

/-! ### One way to write them: a space after every token -/

/-- A character in a string. -/
def charText (c : Char) : Str := if c = '"' then c!"\\\"" else if c = '\\' then c!"\\\\" else if c = '\r' then c!"\\r" else [c]

theorem charText_ok (c : Char) : CharText c (charText c) := by
  unfold charText
  split
  · next h => subst h; exact .quote
  split
  · next h => subst h; exact .backslash
  split
  · next h => subst h; exact .return
  · next h1 h2 h3 => exact .plain c h1 h2 h3

theorem bodyText_ok : ∀ s : Str, BodyText s (s.flatMap charText)
  | [] => .nil
  | c :: s => .cons (charText_ok c) (bodyText_ok s)

/-- All digits of a finite float: 1074 of them after the point are enough. -/
def floatDigits (b : Nat) : Str := List.replicate 1075 '0' ++ Nat.toDigits 10 (f64Units b * 5 ^ 1074)

/-- The digits before the point. -/
def wholePart (b : Nat) : Str := (floatDigits b).take ((floatDigits b).length - 1074)
/-- The digits after the point. -/
def fracPart (b : Nat) : Str := (floatDigits b).drop ((floatDigits b).length - 1074)

theorem floatDigits_val (b : Nat) : digitsVal 10 (floatDigits b) = f64Units b * 5 ^ 1074 := by
  have h : ∀ k, List.foldl (fun n c => n * 10 + Parse.digitVal c) 0 (List.replicate k '0') = 0 := by
    intro k
    induction k with
    | zero => rfl
    | succ k ih => rw [List.replicate_succ, List.foldl_cons]; exact ih
  unfold floatDigits digitsVal
  rw [List.foldl_append, h]
  exact Parse.digitsVal_toDigits 10 (by decide) (by decide) _

theorem floatDigits_digit (b : Nat) : ∀ c ∈ floatDigits b, c.isDigit = true := by
  intro c hc
  rcases List.mem_append.mp hc with h | h
  · rw [List.mem_replicate] at h; rw [h.2]; rfl
  · exact Nat.isDigit_of_mem_toDigits (by decide) (by decide) h

theorem floatDigits_length (b : Nat) : 1075 ≤ (floatDigits b).length := by
  rw [floatDigits, List.length_append, List.length_replicate]
  omega

theorem wholePart_ok (b : Nat) : Decimals (wholePart b) := by
  refine ⟨fun h => ?_, fun c hc => floatDigits_digit b c (List.mem_of_mem_take hc)⟩
  have := congrArg List.length h
  have hl := floatDigits_length b
  simp only [wholePart, List.length_take, List.length_nil] at this
  omega

theorem fracPart_length (b : Nat) : (fracPart b).length = 1074 := by
  have hl := floatDigits_length b
  simp only [fracPart, List.length_drop]
  omega

theorem fracPart_ok (b : Nat) : Decimals (fracPart b) := by
  refine ⟨fun h => ?_, fun c hc => floatDigits_digit b c (List.mem_of_mem_drop hc)⟩
  have := fracPart_length b
  rw [h] at this
  cases this

theorem parts_val (b : Nat) : digitsVal 10 (wholePart b ++ fracPart b) = f64Units b * 5 ^ 1074 := by
  rw [wholePart, fracPart, List.take_append_drop, floatDigits_val]

theorem round_double {b : Nat} (h : f64Finite b = true) (hb : b < 2 ^ 63) :
    roundBits 11 52 (f64Units b * 5 ^ 1074) (10 ^ 1074) = b := by
  have hfin : b % 2 ^ 63 / 2 ^ 52 ≠ 2047 := by
    unfold f64Finite at h
    simpa using h
  refine Parse.roundBits_self (Nat.pow_pos (by decide)) (by omega) ?_
  rw [f64Units_eq]
  have e : fOne 11 52 = 2 ^ 1074 := by unfold fOne; rfl
  rw [e, Nat.mul_assoc, ← Nat.mul_pow]

/-- Rounding does not see a common factor. -/
theorem roundBits_scale (e k p q c : Nat) (hc : 0 < c) : roundBits e k (p * c) (q * c) = roundBits e k p q := by
  have hr : ∀ n m, roundHalfEven (n * c) (m * c) = roundHalfEven n m := by
    intro n m
    unfold roundHalfEven
    have h1 : n * c / (m * c) = n / m := Nat.mul_div_mul_right _ _ hc
    have h2 : n * c % (m * c) = n % m * c := Nat.mul_mod_mul_right _ _ _
    have h3 : (2 * (n % m * c) < m * c) ↔ (2 * (n % m) < m) := by
      rw [← Nat.mul_assoc]; exact Nat.mul_lt_mul_right hc
    have h4 : (m * c < 2 * (n % m * c)) ↔ (m < 2 * (n % m)) := by
      rw [← Nat.mul_assoc]; exact Nat.mul_lt_mul_right hc
    simp only [h1, h2, h3, h4, gt_iff_lt]
  unfold roundBits
  dsimp only
  have e1 : p * c * 2 ^ (k + (2 ^ (e - 1) - 1) - 1) = p * 2 ^ (k + (2 ^ (e - 1) - 1) - 1) * c := by ring
  rw [e1, Nat.mul_div_mul_right _ _ hc]
  have e2 : ∀ x, q * c * x = q * x * c := fun x => by ring
  rw [e2, hr]

/-- The digits of a float before the point. -/
def digitsOf (b : Nat) (s : Str) : Str :=
  match shown b with
  | some n => if s = c!"f32" ∨ s = c!"f64" then wholePart b else Nat.toDigits 10 n
  | none => wholePart b

/-- The digits of a float after the point: none before the suffix of an integer type if it is whole. -/
def pointOf (b : Nat) (s : Str) : Option Str :=
  match shown b with
  | some _ => if s = c!"f32" ∨ s = c!"f64" then some (fracPart b) else none
  | none => some (fracPart b)

theorem digitsOf_cases (b : Nat) (s : Str) :
    (digitsOf b s = wholePart b ∧ pointOf b s = some (fracPart b) ∧ (s = c!"f32" ∨ s = c!"f64" ∨ shown b = none)) ∨
    ∃ n, shown b = some n ∧ digitsOf b s = Nat.toDigits 10 n ∧ pointOf b s = none ∧ s ≠ c!"f32" ∧ s ≠ c!"f64" := by
  unfold digitsOf pointOf
  cases h : shown b with
  | none => exact .inl ⟨rfl, rfl, .inr (.inr rfl)⟩
  | some n =>
    dsimp only
    by_cases hs : s = c!"f32" ∨ s = c!"f64"
    · rw [if_pos hs, if_pos hs]
      exact .inl ⟨rfl, rfl, hs.elim .inl fun h => .inr (.inl h)⟩
    · rw [if_neg hs, if_neg hs]
      exact .inr ⟨n, rfl, rfl, rfl, fun h => hs (.inl h), fun h => hs (.inr h)⟩

theorem float_denotes {b : Fin (2 ^ 64)} (s : Str) (h : f64Finite b.val = true) (hb : b.val < 2 ^ 63) :
    Denotes (.num (digitsOf b.val s) (pointOf b.val s) s) (.float b s) := by
  rcases digitsOf_cases b.val s with ⟨e1, e2, hw⟩ | ⟨n, hn, e1, e2, h32, h64⟩
  rotate_left
  · rw [e1, e2]
    have hv := Parse.digitsVal_toDigits 10 (by decide) (by decide) n
    refine .float _ _ s b h32 hb ?_ (.inr (.inr ⟨rfl, by rw [hn, hv]⟩))
    rw [Option.getD_none, List.append_nil, hv, List.length_nil, Nat.pow_zero, (shown_some hn).2.2.1, Nat.mod_eq_of_lt hb]
  rw [e1, e2]
  by_cases hs : s = c!"f32"
  · subst hs
    refine .float32 _ _ b h hb ?_
    rw [Option.getD_some, parts_val, fracPart_length]
    have e : (10 : Nat) ^ 1074 = 2 ^ 1074 * 5 ^ 1074 := by rw [← Nat.mul_pow]
    rw [e, roundBits_scale 8 23 _ _ _ (Nat.pow_pos (by decide))]
    unfold f64ToF32
    rw [if_neg (by omega), Nat.zero_add]
  · refine .float _ _ s b hs hb ?_ (hw.resolve_left hs |>.imp_right .inl)
    rw [Option.getD_some, parts_val, fracPart_length]
    exact round_double h hb

/-- A token as text. -/
def textOf : Tok → Str
  | .ident s => s
  | .life s => '\'' :: s
  | .punct p => p.text
  | .opn d => d.opening
  | .cls d => d.closing
  | .str s => '"' :: (s.flatMap charText ++ c!"\"")
  | .int n s => Nat.toDigits 10 n ++ s
  | .float b s => digitsOf b.val s ++ (pointText (pointOf b.val s) ++ s)

/-- Tokens as text, with a space after every token. -/
def spaced (ts : Toks) : Str := ts.flatMap fun t => textOf t ++ [' ']

theorem suffixOk_any {s : Str} (ip : Str) (h : suffixOk c!"0" s = true) : suffixOk ip s = true := by
  unfold suffixOk at h ⊢
  split
  · rfl
  · simp at h ⊢
    exact ⟨⟨h.1.1, h.1.2⟩, .inr h.2⟩

theorem textOf_ok {t : Tok} (h : TokOk t) : TokText t (textOf t) := by
  cases t with
  | ident s => exact .ident s h
  | life s => exact .life s h
  | punct p => exact .punct p
  | opn d => exact .opn d
  | cls d => exact .cls d
  | str s => exact .str (bodyText_ok s)
  | int n s =>
    have hs : wordOk s = true ∧ suffixOk c!"0" s = true := by simpa [TokOk, suffixWord] using h
    have := TokText.int (Nat.toDigits 10 n) s ⟨Nat.toDigits_ne_nil, Parse.toDigits_digits n⟩ hs.1 (suffixOk_any _ hs.2)
    rwa [Parse.digitsVal_toDigits 10 (by decide) (by decide)] at this
  | float b s =>
    obtain ⟨hs, hf, hb⟩ := h
    have hs : wordOk s = true ∧ suffixOk c!"0" s = true := by simpa [suffixWord] using hs
    refine .float _ _ b s ?_ ?_ hs.1 (suffixOk_any _ hs.2) (float_denotes s hf hb)
    · rcases digitsOf_cases b.val s with ⟨e, _⟩ | ⟨n, _, e, _⟩
      · rw [e]; exact wholePart_ok _
      · rw [e]; exact ⟨Nat.toDigits_ne_nil, Parse.toDigits_digits n⟩
    · rcases digitsOf_cases b.val s with ⟨_, e, _⟩ | ⟨n, _, _, e, _⟩
      · rw [e]; exact fun x hx => Option.some.inj hx ▸ fracPart_ok _
      · rw [e]; nofun

theorem stops_space (t : Tok) (r : Str) : Stops t (' ' :: r) := by
  have h1 : wordChar ' ' = false := by decide
  cases t <;> simp [Stops, ends, afterWord, h1]
  rename_i p
  cases p <;> decide

/-- Tokens that can be written have a text. -/
theorem spelled_spaced : ∀ {ts : Toks}, Spellable ts → Spelled ts (spaced ts)
  | [], _ => .nil nofun
  | t :: ts, h => by
    have hr := spelled_spaced (ts := ts) fun x hx => h x (List.mem_cons_of_mem _ hx)
    have : ∀ {ts : Toks} {s : Str}, Spelled ts s → Spelled ts (' ' :: s) := by
      intro ts s hs
      cases hs with
      | nil hw => exact .nil (w := ' ' :: s) (by simpa using ⟨by decide, hw⟩)
      | cons hw ht hst hr => exact .cons (w := ' ' :: _) (by simpa using ⟨by decide, hw⟩) ht hst hr
    have e : spaced (t :: ts) = [] ++ (textOf t ++ (' ' :: spaced ts)) := by simp [spaced]
    rw [e]
    exact .cons (by simp) (textOf_ok (h t List.mem_cons_self)) (stops_space _ _) (this hr)

/-! ### The token that is meant -/

/-- The literal that a number is. -/
def Tok.number : Tok → Option Rs.Lit
  | .int n s => some (.int n s)
  | .float b s => some (.float b s)
  | _ => none

/-- The bit pattern of the number that is written: the nearest float, or the whole number. -/
def written (ip : Str) (fp : Option Str) : STy → Nat
  | .f32 => roundBits 8 23 (digitsVal 10 (ip ++ fp.getD [])) (10 ^ (fp.getD []).length)
  | .f64 => roundBits 11 52 (digitsVal 10 (ip ++ fp.getD [])) (10 ^ (fp.getD []).length)
  | _ => digitsVal 10 ip

theorem primOf_name {s : Str} {t : STy} (h : Rs.primOf s = some t) : s = Rs.primName t := by
  have := List.find?_some h
  simpa using Eq.symm (beq_iff_eq.mp this)

theorem litValue_int {i : Int} {s : Str} {v : Rs.Value} (h : Rs.litValue (.int i s) = some v) :
    ∃ t x, s = Rs.primName t ∧ Gen.literal t (.integer i) = some x ∧ v = .scalar t x := by
  simp only [Rs.litValue, Option.bind_eq_bind, Option.bind_eq_some_iff, Option.pure_def, Option.some.injEq] at h
  obtain ⟨t, ht, x, hx, rfl⟩ := h
  obtain rfl := primOf_name ht
  rw [Rs.litVal, if_pos rfl] at hx
  exact ⟨t, x, rfl, hx, rfl⟩

theorem litValue_float {b : Fin (2 ^ 64)} {s : Str} {v : Rs.Value} (h : Rs.litValue (.float b s) = some v) :
    ∃ t x, s = Rs.primName t ∧ Gen.literal t (.float b) = some x ∧ v = .scalar t x := by
  simp only [Rs.litValue, Option.bind_eq_bind, Option.bind_eq_some_iff, Option.pure_def, Option.some.injEq] at h
  obtain ⟨t, ht, x, hx, rfl⟩ := h
  obtain rfl := primOf_name ht
  rw [Rs.litVal, if_pos rfl] at hx
  exact ⟨t, x, rfl, hx, rfl⟩

theorem intLit_nat {sg : Bool} {w n v : Nat} (h : Gen.intLit sg w n = some v) (h1 : 1 ≤ w) : v = n ∧ v < 2 ^ w := by
  have hp : 2 ^ (w - 1) ≤ 2 ^ w := Nat.pow_le_pow_right (by decide) (by omega)
  unfold Gen.intLit at h
  split at h
  · split at h
    · rename_i hr
      have hn : n < 2 ^ (w - 1) := by exact_mod_cast hr.2
      injection h with h
      have hm : (n : Int) % 2 ^ w = (n : Int) := Int.emod_eq_of_lt (by omega) (by exact_mod_cast Nat.lt_of_lt_of_le hn hp)
      unfold ofSigned at h
      rw [hm] at h
      omega
    · cases h
  · split at h
    · rename_i hr
      have hn : n < 2 ^ w := by exact_mod_cast hr.2
      injection h with h
      omega
    · cases h

theorem ofNat_lt {n k : Nat} [NeZero n] (h : k < n) : (Fin.ofNat n k).val = k := Nat.mod_eq_of_lt h

/-- The value of a whole number. -/
theorem literal_int {t : STy} {n : Nat} {x : SVal t} (h : Gen.literal t (.integer n) = some x) (ip : Str) (hn : n = digitsVal 10 ip) :
    x.val = written ip none t := by
  have hf : ∀ e k : Nat, roundBits e k n 1 ≤ (2 ^ e - 1) * 2 ^ k := fun e k => Nat.min_le_right _ _
  have h8 := hf 8 23
  have h11 := hf 11 52
  cases t <;> simp only [Gen.literal, reduceCtorEq, Option.map_eq_some_iff] at h
  case f32 =>
    injection h with h
    rw [← h]
    refine (ofNat_lt ?_).trans ?_
    all_goals
      simp only [Gen.signBit, written, Option.getD_none, List.append_nil, List.length_nil, ← hn, Nat.pow_zero]
      rw [if_neg (by omega), Int.natAbs_natCast]
      first | omega | (show _ < 2 ^ 32; omega)
  case f64 =>
    injection h with h
    rw [← h]
    refine (ofNat_lt ?_).trans ?_
    all_goals
      simp only [Gen.signBit, written, Option.getD_none, List.append_nil, List.length_nil, ← hn, Nat.pow_zero]
      rw [if_neg (by omega), Int.natAbs_natCast]
      first | omega | (show _ < 2 ^ 64; omega)
  all_goals
    obtain ⟨v, hv, rfl⟩ := h
    obtain ⟨rfl, hlt⟩ := intLit_nat hv (by decide)
    exact (ofNat_lt hlt).trans hn

/-- The value of a number is what is written. -/
theorem denotes_value {ip s : Str} {fp : Option Str} {t : Tok} {x : Rs.Lit} {v : Rs.Value} (h : Denotes (.num ip fp s) t)
    (hx : t.number = some x) (hv : Rs.litValue x = some v) : ∃ ty y, s = Rs.primName ty ∧ v = .scalar ty y ∧
      y.val = written ip fp ty ∧ (ty ≠ .f32 → ty ≠ .f64 → fp = none) := by
  cases h with
  | int =>
    cases hx
    obtain ⟨ty, y, hs, hy, rfl⟩ := litValue_int hv
    exact ⟨ty, y, hs, rfl, literal_int hy ip rfl, fun _ _ => rfl⟩
  | float32 _ _ b hf hb h =>
    cases hx
    obtain ⟨ty, y, hs, hy, rfl⟩ := litValue_float hv
    refine ⟨ty, y, hs, rfl, ?_⟩
    cases ty <;> simp only [Gen.literal, reduceCtorEq] at hy <;> try exact absurd hs (by decide)
    refine ⟨?_, fun h => absurd rfl h⟩
    split at hy
    · injection hy with hy
      rw [← hy, written, h]
      refine ofNat_lt ?_
      rw [← h]
      exact Nat.lt_of_le_of_lt (Nat.min_le_right _ _) (by decide)
    · cases hy
  | float _ _ _ b hs' hb h hw =>
    cases hx
    obtain ⟨ty, y, hs, hy, rfl⟩ := litValue_float hv
    refine ⟨ty, y, hs, rfl, ?_⟩
    have whole : ∀ {sg : Bool} {w v : Nat}, Gen.wholeLit sg w b.val = some v → 1 ≤ w → s ≠ c!"f64" → v = digitsVal 10 ip ∧ v < 2 ^ w ∧ fp = none := by
      intro sg w v hv h1 h64
      unfold Gen.wholeLit at hv
      split at hv
      · cases hv
      obtain ⟨n, hn, hv⟩ := Option.bind_eq_some_iff.mp hv
      rw [if_neg (Nat.not_le.mpr hb)] at hv
      obtain ⟨rfl, hlt⟩ := intLit_nat hv h1
      rcases hw with hw | hw | ⟨hp, hw⟩
      · exact absurd hw h64
      · rw [hw] at hn; cases hn
      · rw [hw] at hn
        exact ⟨(Option.some.inj hn).symm, hlt, hp⟩
    cases ty <;> simp only [Gen.literal, reduceCtorEq, Option.map_eq_some_iff] at hy
    case f32 => exact absurd hs hs'
    case f64 =>
      refine ⟨?_, fun _ h => absurd rfl h⟩
      split at hy
      · injection hy with hy
        rw [← hy, written, h]
        exact ofNat_lt b.isLt
      · cases hy
    all_goals
      obtain ⟨v, hv', rfl⟩ := hy
      obtain ⟨rfl, hlt, hp⟩ := whole hv' (by decide) (by rw [hs]; decide)
      exact ⟨ofNat_lt hlt, fun _ _ => hp⟩

/-- A text has only one reading: the token that a lexeme is, or, for a number, its value. -/
theorem denotes_unique {l : Lexeme} {t t' : Tok} (h : Denotes l t) (h' : Denotes l t') :
    t = t' ∨ ∃ x y, t.number = some x ∧ t'.number = some y ∧
      ∀ v w, Rs.litValue x = some v → Rs.litValue y = some w → v = w := by
  cases l with
  | num ip fp s =>
    right
    have hn : ∀ t, Denotes (.num ip fp s) t → ∃ x, t.number = some x := by
      intro t h
      cases h <;> exact ⟨_, rfl⟩
    obtain ⟨x, hx⟩ := hn t h
    obtain ⟨y, hy⟩ := hn t' h'
    refine ⟨x, y, hx, hy, fun v w hv hw => ?_⟩
    obtain ⟨a, p, ha, rfl, hp, -⟩ := denotes_value h hx hv
    obtain ⟨b, q, hb, rfl, hq, -⟩ := denotes_value h' hy hw
    have hab : a = b := by
      rw [ha] at hb
      revert hb
      cases a <;> cases b <;> first | (intro; rfl) | (intro h; exact absurd h (by decide))
    subst hab
    rw [Fin.ext (hp.trans hq.symm)]
  | _ => left; cases h; cases h'; rfl

end Butte.Src
