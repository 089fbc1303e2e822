import Verif.Parse.Again
import Verif.Parse.Reprint
import Verif.Parse.Ascii
import Verif.Props.Parser
import Verif.Props.Defaults
/-
Properties C61–C63: what the schema parser (butte-build/src/ast/parser.rs) accepts is what the grammar describes;
floating-point literals; canonical texts.
-/
namespace Butte.Parse
open Ast

/-! ### C61 -/

section
variable [Env]

/-- **C61**: a text that is accepted is a way of writing the schema returned for it, whatever the text. (`HexfPrefix`
says that `parse_hexf64` refuses a text that does not begin with `0x`.) -/
theorem C61_sound (hx : HexfPrefix) {t : Str} {s : Schema} (h : schemaDecl t = some ([], s)) : SchemaText s t :=
  schemaDecl_sound hx h

/-- **C61** for a single declaration, whatever follows it. -/
theorem C61_element (hx : HexfPrefix) {t r : Str} {e : Element} (h : element t = some (r, e)) :
    ∃ u, ElementText e u ∧ t = u ++ r := element_sound hx _ _ _ h

/-- Together with C51: exactly the texts of the grammar are accepted, among the texts without the words `nan`, `inf` and
`infinity`, for trees whose defaults do not begin with `true` or `false`. -/
theorem C61_exact (hx : HexfPrefix) {t : Str} {s : Schema} (hq : NoSpecial t) (hv : NamesSchema s) :
    schemaDecl t = some ([], s) ↔ SchemaText s t :=
  ⟨schemaDecl_sound hx, fun h => schemaDecl_eq h hv hq⟩

/-- No such text has two readings. -/
theorem C61_unambiguous {t : Str} {s s' : Schema} (hq : NoSpecial t) (hv : NamesSchema s) (hv' : NamesSchema s')
    (h : SchemaText s t) (h' : SchemaText s' t) : s = s' := by
  have h1 := schemaDecl_eq h hv hq
  rw [schemaDecl_eq h' hv' hq] at h1
  cases h1
  rfl

end

section
attribute [local instance] asciiEnv

example : HexfPrefix := nofun

/-- A text that is accepted. -/
example : ∃ s, schemaDecl c!"enum E:byte{A,B=5,} union U{T} table T{e:E=B;u:U;} rpc_service R{f(T):T;}" = some ([], s) ∧
    s.elements.length = 4 := ⟨_, rfl, rfl⟩

/-- What the grammar does not allow is refused: a service without methods, an enum without variants, a file identifier
of four characters but more than four bytes, an identifier that begins with a digit. -/
example : ∀ t ∈ [c!"rpc_service R{}", c!"enum E:byte{}", c!"file_identifier \"abcé\";", c!"namespace 1a;"],
    schemaDecl t = some (t, ⟨[], []⟩) := by
  simp only [List.forall_mem_cons]
  exact ⟨rfl, rfl, rfl, rfl, nofun⟩

end

/-! ### C62 -/

/-- A decimal fraction: the sign, the digits without the period as a number, the power of ten, and the text. -/
inductive Decimal : Bool → Nat → Int → Str → Prop
  | point {neg : Bool} {sg ip fp : Str} : Sign neg sg → Digits ip → Digits fp → (ip ≠ [] ∨ fp ≠ []) →
      Decimal neg (digitsVal 10 (ip ++ fp)) (-fp.length) (sg ++ (ip ++ '.' :: fp))
  | pointExp {neg : Bool} {sg ip fp et : Str} {e : Int} : Sign neg sg → Digits ip → Digits fp →
      (ip ≠ [] ∨ fp ≠ []) → ExpText e et →
      Decimal neg (digitsVal 10 (ip ++ fp)) (e - fp.length) (sg ++ (ip ++ '.' :: (fp ++ et)))
  | exp {neg : Bool} {sg ip et : Str} {e : Int} : Sign neg sg → Digits ip → ip ≠ [] → ExpText e et →
      Decimal neg (digitsVal 10 ip) e (sg ++ (ip ++ et))

theorem Decimal.text {neg : Bool} {n : Nat} {e : Int} {t : Str} (h : Decimal neg n e t) :
    FloatText (decF64 neg n e) t := by
  cases h with
  | point h1 h2 h3 h4 => exact .point h1 h2 h3 h4
  | pointExp h1 h2 h3 h4 h5 => exact .pointExp h1 h2 h3 h4 h5
  | exp h1 h2 h3 h4 => exact .exp h1 h2 h3 h4

theorem Decimal.of_text {b : Fin (2 ^ 64)} {t : Str} (h : FloatText b t) : ∃ neg n e, Decimal neg n e t := by
  cases h with
  | point h1 h2 h3 h4 => exact ⟨_, _, _, .point h1 h2 h3 h4⟩
  | pointExp h1 h2 h3 h4 h5 => exact ⟨_, _, _, .pointExp h1 h2 h3 h4 h5⟩
  | exp h1 h2 h3 h4 => exact ⟨_, _, _, .exp h1 h2 h3 h4⟩

/-- The bit pattern is that of an infinity, and the number is at least half way between the largest finite number and the
next power of two. -/
structure TooLarge (e k : Nat) (bits : Nat) (negative : Bool) (p q : Nat) : Prop where
  bits : bits = negative.toNat * 2 ^ (e + k) + (2 ^ e - 1) * 2 ^ k
  large : (2 ^ (k + 2) - 1) * 2 ^ (2 ^ e - 3) * q ≤ 2 * (p * fOne e k)

theorem roundHalfEven_lower (n d : Nat) (hd : 0 < d) (h1 : 1 ≤ roundHalfEven n d) :
    2 * (roundHalfEven n d * d) ≤ 2 * n + d := by
  obtain ⟨m, hm⟩ : ∃ m, roundHalfEven n d = m + 1 := ⟨roundHalfEven n d - 1, by omega⟩
  have h := roundHalfEven_near n d hd m
  have hb := (roundHalfEven_bounds n d).2
  rw [hm] at h hb ⊢
  have h2 : m * d ≤ n := Nat.le_trans (Nat.mul_le_mul_right d (by omega)) (Nat.div_mul_le_self n d)
  rw [Nat.add_mul, Nat.one_mul] at h ⊢
  unfold dist at h
  omega

theorem roundBits_large {e k p q : Nat} (hq : 0 < q) (he : 3 ≤ 2 ^ e)
    (h : (2 ^ e - 1) * 2 ^ k ≤ roundBits e k p q) :
    (2 ^ (k + 2) - 1) * 2 ^ (2 ^ e - 3) * q ≤ 2 * (p * fOne e k) := by
  have h' := Nat.le_trans h (Nat.min_le_left _ _)
  change _ ≤ _ * 2 ^ k + roundHalfEven (p * fOne e k) _ at h'
  rw [show p * 2 ^ (k + (2 ^ (e - 1) - 1) - 1) = p * fOne e k from rfl] at h'
  generalize p * fOne e k = n at *
  generalize hsh : Nat.log2 (n / q) - k = sh at *
  obtain ⟨E, hE⟩ : ∃ E, 2 ^ e = E + 3 := ⟨2 ^ e - 3, by omega⟩
  rw [hE] at h' ⊢
  rw [Nat.add_sub_cancel]
  have big : k + E + 1 ≤ Nat.log2 (n / q) → (2 ^ (k + 2) - 1) * 2 ^ E * q ≤ 2 * n := by
    intro hl
    have hne : n / q ≠ 0 := by
      intro h0
      rw [h0] at hl
      have : Nat.log2 0 = 0 := by decide
      omega
    have h1 : 2 ^ (k + E + 1) ≤ n / q := (Nat.le_log2 hne).mp hl
    have h2 : 2 ^ (k + E + 1) * q ≤ n := Nat.le_trans (Nat.mul_le_mul_right q h1) (Nat.div_mul_le_self n q)
    calc (2 ^ (k + 2) - 1) * 2 ^ E * q ≤ 2 ^ (k + 2) * 2 ^ E * q :=
          Nat.mul_le_mul_right _ (Nat.mul_le_mul_right _ (Nat.sub_le _ _))
      _ = 2 * (2 ^ (k + E + 1) * q) := by ring
      _ ≤ 2 * n := Nat.mul_le_mul_left 2 h2
  rcases Nat.lt_or_ge sh (E + 1) with hlt | hge
  · have hr := (roundHalfEven_bounds n (q * 2 ^ sh)).2
    have hdpos : 0 < q * 2 ^ sh := Nat.mul_pos hq (Nat.two_pow_pos _)
    have hdiv : n / (q * 2 ^ sh) < 2 ^ (k + 1) := by
      rw [← Nat.div_div_eq_div_mul]
      by_cases h0 : n / q = 0
      · rw [h0, Nat.zero_div]; exact Nat.two_pow_pos _
      · refine (Nat.div_lt_iff_lt_mul (Nat.two_pow_pos _)).mpr ?_
        rw [← Nat.pow_add]
        exact (Nat.log2_lt h0).mp (by omega)
    have hk : 0 < 2 ^ k := Nat.two_pow_pos k
    have hk2 : 2 ^ (k + 1) = 2 * 2 ^ k := by ring
    have hshE : sh = E := by
      by_contra hne
      have : (sh + 1) * 2 ^ k ≤ E * 2 ^ k := Nat.mul_le_mul_right _ (by omega)
      rw [Nat.add_mul] at this
      have e2 : (E + 3 - 1) * 2 ^ k = E * 2 ^ k + 2 * 2 ^ k := by
        rw [show E + 3 - 1 = E + 2 by omega, Nat.add_mul]
      omega
    subst hshE
    have hR : 2 ^ (k + 1) ≤ roundHalfEven n (q * 2 ^ sh) := by
      have e2 : (sh + 3 - 1) * 2 ^ k = sh * 2 ^ k + 2 * 2 ^ k := by
        rw [show sh + 3 - 1 = sh + 2 by omega, Nat.add_mul]
      omega
    have hl := roundHalfEven_lower n (q * 2 ^ sh) hdpos (by omega)
    have h3 : 2 ^ (k + 1) * (q * 2 ^ sh) ≤ roundHalfEven n (q * 2 ^ sh) * (q * 2 ^ sh) := Nat.mul_le_mul_right _ hR
    have e4 : (2 ^ (k + 2) - 1) * 2 ^ sh * q = 2 * (2 ^ (k + 1) * (q * 2 ^ sh)) - q * 2 ^ sh := by
      rw [Nat.mul_assoc, Nat.sub_mul]
      congr 1
      · ring
      · ring
    rw [e4]
    omega
  · exact big (by omega)

theorem decF64_spec (neg : Bool) (n : Nat) (s : Int) :
    Nearest 11 52 (decF64 neg n s).val neg (n * 10 ^ s.toNat) (10 ^ (-s).toNat) ∨
    TooLarge 11 52 (decF64 neg n s).val neg (n * 10 ^ s.toNat) (10 ^ (-s).toNat) := by
  have hb : (decF64 neg n s).val =
      neg.toNat * 2 ^ (11 + 52) + roundBits 11 52 (n * 10 ^ s.toNat) (10 ^ (-s).toNat) := by
    have hle := roundBits_le 11 52 (n * 10 ^ s.toNat) (10 ^ (-s).toNat)
    have e : (if 0 ≤ s then roundBits 11 52 (n * 10 ^ s.toNat) 1 else roundBits 11 52 n (10 ^ (-s).toNat)) =
        roundBits 11 52 (n * 10 ^ s.toNat) (10 ^ (-s).toNat) := by
      split
      · rw [show (-s).toNat = 0 by omega, Nat.pow_zero]
      · rw [show s.toNat = 0 by omega, Nat.pow_zero, Nat.mul_one]
    unfold decF64
    rw [e]
    show ((if neg then 2 ^ 63 else 0) + _) % 2 ^ 64 = _
    cases neg
    · rw [if_neg (by decide), Bool.toNat_false]; omega
    · rw [if_pos rfl, Bool.toNat_true]; omega
  have hq : 0 < 10 ^ (-s).toNat := Nat.pow_pos (by decide)
  rcases Nat.lt_or_ge (roundBits 11 52 (n * 10 ^ s.toNat) (10 ^ (-s).toNat)) ((2 ^ 11 - 1) * 2 ^ 52) with h | h
  · left
    rw [hb]
    exact nearest_of hq (by decide) neg h
  · right
    refine ⟨?_, roundBits_large hq (by decide) h⟩
    rw [hb]
    have hle := roundBits_le 11 52 (n * 10 ^ s.toNat) (10 ^ (-s).toNat)
    rw [Nat.le_antisymm hle h]

section
variable [Env]

/-- **C62** for decimal fractions in a text without the words `nan`, `inf` and `infinity`: the literal is read to its end,
as the nearest double, or as an infinity if the number is at least half way between the largest double and `2 ^ 1024`.
Full statement: also for hexadecimal fractions. -/
theorem C62_partial {neg : Bool} {n : Nat} {e : Int} {t r : Str} (h : Decimal neg n e t) (hr : Delim r)
    (hq : NoSpecial (t ++ r)) :
    ∃ b, scalar (t ++ r) = some (r, .float b) ∧
      (Nearest 11 52 b.val neg (n * 10 ^ e.toNat) (10 ^ (-e).toNat) ∨
        TooLarge 11 52 b.val neg (n * 10 ^ e.toNat) (10 ^ (-e).toNat)) :=
  ⟨_, alt_left (map_eq (floatConstant_eq h.text hr hq)), decF64_spec _ _ _⟩

/-- **C62** is false for hexadecimal fractions: `hex_float_constant` hands the text without its `0x` to `parse_hexf64`,
which wants the `0x`; so the rule succeeds on no text at all. -/
theorem C62_hex_never (hx : HexfPrefix) (i : Str) : hexFloatConstant i = none := hexFloat_never hx i

/-- Nothing but decimal fractions is read as a float in front of something. -/
theorem C62_only_decimal (hx : HexfPrefix) {i r : Str} {b : Fin (2 ^ 64)} (h : scalar i = some (r, .float b))
    (hr : r ≠ []) : ∃ neg n e t, Decimal neg n e t ∧ i = t ++ r := by
  obtain ⟨t, ht, rfl⟩ := scalar_sound hx _ _ _ h hr
  cases ht with
  | float ht =>
    obtain ⟨neg, n, e, hd⟩ := Decimal.of_text ht
    exact ⟨neg, n, e, t, hd, rfl⟩

end

section
attribute [local instance] asciiEnv

/-- **C62** is false: tables with the default `0x1.8p1` (3.0), `-0x.8` and `0x1p3` are refused although hexadecimal
fractions are part of the grammar. -/
theorem C62_refuted : ∀ t ∈ [c!"table T{a:double=0x1.8p1;}", c!"table T{a:double=-0x.8;}", c!"table T{a:double=0x1p3;}"],
    schemaDecl t = some (t, ⟨[], []⟩) := by
  simp only [List.forall_mem_cons]
  exact ⟨rfl, rfl, rfl, nofun⟩

/-- `-12.5e1` is -125, exactly. -/
example : Decimal true 125 0 c!"-12.5e1" ∧ Delim c!";" ∧ scalar c!"-12.5e1;" = some (c!";", .float 0xc05f400000000000) :=
  ⟨.pointExp (sg := c!"-") (ip := c!"12") (fp := c!"5") (et := c!"e1") (e := 1) .minus (by unfold Digits; decide)
    (by unfold Digits; decide) (by decide) (.mk (sg := []) (ds := c!"1") .none (.inl rfl) (by unfold Digits; decide)
      (by decide)), ⟨';', [], rfl, by decide⟩, by decide +kernel⟩

/-- A number beyond the doubles. -/
example : TooLarge 11 52 (decF64 false 1 400).val false (1 * 10 ^ (400 : Int).toNat) (10 ^ (-400 : Int).toNat) :=
  (decF64_spec false 1 400).resolve_left (fun h => absurd h.finite (by decide +kernel))

end

/-! ### C63 -/

section
variable [Env]

/-- **C63**, the first half: every schema that was read from some text can be printed, and the printed text is a way of
writing it. -/
theorem C63_print (hx : HexfPrefix) {t : Str} {s : Schema} (h : schemaDecl t = some ([], s)) :
    SchemaText s (printSchema s) := printSchema_text (schemaDecl_sound hx h).ok

/-- **C63**: reading the printed text gives the same schema, for every schema that was read from some text. In particular
for those with the words `nan`, `inf` and `infinity` in names or comments, which change how numbers are read, and for those
with defaults that begin with `true` or `false`. -/
theorem C63_reprint (hx : HexfPrefix) {t : Str} {s : Schema} (h : schemaDecl t = some ([], s)) :
    schemaDecl (printSchema s) = some ([], s) := again_schema hx h

/-- Printing is a normal form: texts are read as the same schema exactly when they print alike. -/
theorem C63_normal (hx : HexfPrefix) {t t' : Str} {s s' : Schema} (h : schemaDecl t = some ([], s))
    (h' : schemaDecl t' = some ([], s')) : printSchema s = printSchema s' ↔ s = s' := by
  refine ⟨fun e => ?_, fun e => e ▸ rfl⟩
  have h1 := C63_reprint hx h
  rw [e, C63_reprint hx h'] at h1
  exact (Prod.mk.inj (Option.some.inj h1)).2.symm

/-- **C51**, exactly: the schemas whose printed text is read back are those that are read from any text at all. So where C51
fails, the schema cannot be written in any way (see the example below). -/
theorem C51_exact_partial (hx : HexfPrefix) (s : Schema) :
    schemaDecl (printSchema s) = some ([], s) ↔ ∃ t, schemaDecl t = some ([], s) :=
  ⟨fun h => ⟨_, h⟩, fun ⟨_, h⟩ => C63_reprint hx h⟩

/-- The schemas that have a text are those that can be printed. -/
theorem C63_trees {s : Schema} : (∃ t, SchemaText s t) ↔ SchemaOk s :=
  ⟨fun ⟨_, h⟩ => h.ok, fun h => ⟨_, printSchema_text h⟩⟩

end

section
attribute [local instance] asciiEnv

example : ∃ s, schemaDecl c!" table T { a : int = 0x10 ; } // c" = some ([], s) ∧
    printSchema s = c!"table T{a:int=16;}" ∧ NamesSchema s ∧ schemaDecl (printSchema s) = some ([], s) := by
  refine ⟨_, rfl, rfl, ?_, rfl⟩
  unfold NamesSchema
  simp only [List.forall_mem_cons, NamesElement, NamesDefault]
  exact ⟨⟨trivial, nofun⟩, nofun⟩

/-- No text at all is read as a table with a number as default and a field `nan` behind it. -/
example (t : Str) : schemaDecl t ≠ some ([], ⟨[], [.table ⟨c!"T",
    [⟨c!"a", .builtin .int, some (.scalar (.integer 5)), none, []⟩, exField c!"nan" (.builtin .int)], none, []⟩]⟩) := by
  intro h
  have h1 := (C51_exact_partial (fun _ _ h => by cases h) _).mpr ⟨t, h⟩
  have h2 := C51_refuted _ (List.mem_cons_of_mem _ List.mem_cons_self)
  rw [h2] at h1
  exact absurd h1 (by simp)

/-- A word that changes how numbers are read, and a default that begins with `true`. -/
example : ∃ s, schemaDecl c!"table nan { a : E = truer ; b : int = 7 ; } // c" = some ([], s) ∧
    printSchema s = c!"table nan{a:E=truer;b:int=7;}" ∧ ¬ NoSpecial (printSchema s) ∧
    schemaDecl (printSchema s) = some ([], s) := by
  refine ⟨_, rfl, rfl, fun h => ?_, rfl⟩
  rcases h c!"nan" (by decide) c!"table " c!"{a:E=truer;b:int=7;}" rfl with ⟨c, h1, h2⟩ | ⟨c, h1, h2⟩ <;>
    cases h1 <;> revert h2 <;> decide

end

end Butte.Parse
