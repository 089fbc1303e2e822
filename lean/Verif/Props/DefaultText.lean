import Verif.Props.ParserExact
import Verif.Gen.WorkableOk
import Verif.Src.Spellable
import Verif.Props.Parser
import Verif.Tests.Kernel
/-
C104: the default of a field is the number that is written in the schema.

The number goes through a 64-bit float if it is written with a point or an exponent (parser.rs 2052-2067), whatever the type of the
field, and is printed into the generated code (codegen.rs 182-202), where rustc reads it again.
-/
namespace Butte
open Gen Parse

/-- The value of type `t` that is meant by the number `p / q`: the nearest float, or the number itself. -/
def Meant (t : STy) (y : SVal t) (neg : Bool) (p q : Nat) : Prop :=
  if t = .f32 then Nearest 8 23 y.val neg p q
  else if t = .f64 then Nearest 11 52 y.val neg p q
  else y.int * q = signed neg p

/-! ### Helpers -/

theorem kindOf_literal {b : Ast.Builtin} {s : Ast.Scalar} {k : Kind} (h : kindOf (.builtin b) (some (.scalar s)) = some k) :
    ∃ y, literal (builtinSTy b) s = some y ∧ k = .scalar (builtinSTy b) (some y) := by
  simp only [kindOf, Option.bind_eq_bind, Option.bind_eq_some_iff, Option.pure_def, Option.some.injEq] at h
  obtain ⟨y, h1, h2⟩ := h
  exact ⟨y, h1, h2.symm⟩

theorem literal_kindOf {b : Ast.Builtin} {s : Ast.Scalar} {y : SVal (builtinSTy b)} (h : literal (builtinSTy b) s = some y) :
    kindOf (.builtin b) (some (.scalar s)) = some (.scalar (builtinSTy b) (some y)) := by
  simp only [kindOf, h, Option.bind_eq_bind, Option.bind_some]
  rfl

theorem intText_range {i : Int} {t : Str} (h : IntText i t) : IsI128 i := by
  unfold IsI128
  cases h with
  | dec _ _ _ h1 h2 => exact ⟨h1, h2⟩
  | hex _ _ _ _ h => unfold signed; split <;> omega

/-- The types of integers that can be negative. -/
def negatives : STy → Bool
  | .i8 | .i16 | .i32 | .i64 => true
  | _ => false

/-- A whole decimal number is as good as the integer that is written for it. -/
theorem literal_whole {t : STy} (ht : t ≠ .f32 ∧ t ≠ .f64) {x : Fin (2 ^ 64)} {n : Nat} {neg : Bool} (hs : shown x.val = some n)
    (hn : decide (2 ^ 63 ≤ x.val) = neg) :
    literal t (.float x) = if neg = true ∧ negatives t = false then none else literal t (.integer (signed neg n)) := by
  have sg : ∀ w, wholeLit true w x.val = intLit true w (signed neg n) := by
    intro w
    unfold wholeLit signed
    rw [if_neg (by simp), hs, Option.bind_some, ← hn]
    simp only [decide_eq_true_eq]
  have us : ∀ w, wholeLit false w x.val = if neg = true then none else intLit false w (signed neg n) := by
    intro w
    unfold wholeLit signed
    cases neg
    · have hx := of_decide_eq_false hn
      rw [if_neg fun h => hx h.2, hs, Option.bind_some, if_neg hx, if_neg (by decide), if_neg (by decide)]
    · have hx := of_decide_eq_true hn
      rw [if_pos ⟨rfl, hx⟩, if_pos rfl]
  clear hn
  obtain ⟨h1, h2⟩ := ht
  cases neg
  all_goals
    cases t
    case f32 => exact absurd rfl h1
    case f64 => exact absurd rfl h2
    all_goals simp [literal, negatives, sg, us]

theorem decF64_bits (neg : Bool) (n : Nat) (e : Int) :
    (decF64 neg n e).val = neg.toNat * 2 ^ 63 + roundBits 11 52 (n * 10 ^ e.toNat) (10 ^ (-e).toNat) := by
  have hle : roundBits 11 52 (n * 10 ^ e.toNat) (10 ^ (-e).toNat) ≤ (2 ^ 11 - 1) * 2 ^ 52 := Nat.min_le_right _ _
  have e' : (if 0 ≤ e then roundBits 11 52 (n * 10 ^ e.toNat) 1 else roundBits 11 52 n (10 ^ (-e).toNat)) =
      roundBits 11 52 (n * 10 ^ e.toNat) (10 ^ (-e).toNat) := by
    split
    · rw [show (-e).toNat = 0 by omega, Nat.pow_zero]
    · rw [show e.toNat = 0 by omega, Nat.pow_zero, Nat.mul_one]
  unfold decF64
  rw [e']
  show ((if neg then 2 ^ 63 else 0) + _) % 2 ^ 64 = _
  cases neg
  · rw [if_neg (by decide), Bool.toNat_false]; omega
  · rw [if_pos rfl, Bool.toNat_true]; omega

theorem decF64_neg (neg : Bool) (n : Nat) (e : Int) : decide (2 ^ 63 ≤ (decF64 neg n e).val) = neg := by
  have hle : roundBits 11 52 (n * 10 ^ e.toNat) (10 ^ (-e).toNat) ≤ (2 ^ 11 - 1) * 2 ^ 52 := Nat.min_le_right _ _
  rw [decF64_bits]
  cases neg
  · rw [decide_eq_false_iff_not, Bool.toNat_false]; omega
  · rw [decide_eq_true_eq, Bool.toNat_true]; omega

theorem decF64_mod (neg : Bool) (n : Nat) (e : Int) :
    (decF64 neg n e).val % 2 ^ 63 = roundBits 11 52 (n * 10 ^ e.toNat) (10 ^ (-e).toNat) := by
  have hle : roundBits 11 52 (n * 10 ^ e.toNat) (10 ^ (-e).toNat) ≤ (2 ^ 11 - 1) * 2 ^ 52 := Nat.min_le_right _ _
  rw [decF64_bits]
  cases neg
  · rw [Bool.toNat_false]; omega
  · rw [Bool.toNat_true]; omega

/-- Being nearest depends on the number only. -/
theorem Nearest.scale {e k bits p q p' q' : Nat} {neg : Bool} (h : Nearest e k bits neg p q) (hq : 0 < q) (he : p * q' = p' * q) :
    Nearest e k bits neg p' q' := by
  refine ⟨h.sign, h.finite, fun y => ?_⟩
  have dm : ∀ a b c, dist (a * c) (b * c) = dist a b * c := by
    intro a b c
    unfold dist
    rw [Nat.add_mul, Nat.sub_mul, Nat.sub_mul]
  have key : ∀ a, dist (a * q') (p' * fOne e k) * q = dist (a * q) (p * fOne e k) * q' := by
    intro a
    rw [← dm, ← dm]
    congr 1
    · ring
    · calc p' * fOne e k * q = p' * q * fOne e k := by ring
        _ = p * q' * fOne e k := by rw [he]
        _ = p * fOne e k * q' := by ring
  have := Nat.mul_le_mul_right q' (h.near y)
  rw [← key, ← key] at this
  exact Nat.le_of_mul_le_mul_right this hq

/-! ### The property -/

section
variable [Env]

/-- **C104** for integers, decimal or hexadecimal, with or without a sign: the default is the integer, or the float nearest to it. -/
theorem C104_integer {i : Int} {t r : Str} (h : IntText i t) (hr : Delim r) (hq : NoSpecial (t ++ r)) (b : Ast.Builtin) :
    ∃ s, scalar (t ++ r) = some (r, s) ∧ ∀ k, kindOf (.builtin b) (some (.scalar s)) = some k →
      ∃ y, k = .scalar (builtinSTy b) (some y) ∧ Meant (builtinSTy b) y (decide (i < 0)) i.natAbs 1 := by
  refine ⟨_, scalar_eq (.integer h) hr hq, fun k hk => ?_⟩
  by_cases h32 : builtinSTy b = .f32
  · have hb : b = .float ∨ b = .float32 := by cases b <;> first | exact .inl rfl | exact .inr rfl | cases h32
    obtain ⟨y, hy, hn⟩ := C34_integer_float hb i (intText_range h)
    rw [hk] at hy
    rcases hb with rfl | rfl <;> exact ⟨y, Option.some.inj hy, hn⟩
  by_cases h64 : builtinSTy b = .f64
  · have hb : b = .double ∨ b = .float64 := by cases b <;> first | exact .inl rfl | exact .inr rfl | cases h64
    obtain ⟨y, hy, hn⟩ := C34_integer_double hb i (intText_range h)
    rw [hk] at hy
    rcases hb with rfl | rfl <;> exact ⟨y, Option.some.inj hy, hn⟩
  obtain ⟨y, hy, hi⟩ := C34_explicit_integer b i k ⟨h32, h64⟩ hk
  refine ⟨y, hy, ?_⟩
  unfold Meant signed
  rw [if_neg h32, if_neg h64, hi]
  by_cases h0 : i < 0
  · rw [decide_eq_true h0, if_pos rfl]; omega
  · rw [decide_eq_false h0, if_neg (by decide)]; omega

/-- **C104** for decimal numbers of `double` fields: the default is the nearest float. -/
theorem C104_double {neg : Bool} {n : Nat} {e : Int} {t r : Str} (h : Decimal neg n e t) (hr : Delim r) (hq : NoSpecial (t ++ r))
    {b : Ast.Builtin} (hb : b = .double ∨ b = .float64) :
    ∃ s, scalar (t ++ r) = some (r, s) ∧ ∀ k, kindOf (.builtin b) (some (.scalar s)) = some k →
      ∃ y : SVal .f64, k = .scalar .f64 (some y) ∧ Meant .f64 y neg (n * 10 ^ e.toNat) (10 ^ (-e).toNat) := by
  refine ⟨_, scalar_eq (.float h.text) hr hq, fun k hk => ?_⟩
  rw [C34_decimal_double hb] at hk
  split at hk
  · rename_i hf
    refine ⟨_, (Option.some.inj hk).symm, ?_⟩
    rw [Meant, if_neg (by decide), if_pos rfl]
    have hv : (Fin.ofNat (STy.card .f64) (decF64 neg n e).val).val = (decF64 neg n e).val := Nat.mod_eq_of_lt (decF64 neg n e).isLt
    rw [hv]
    refine (decF64_spec neg n e).resolve_right fun ht => ?_
    have := ht.bits
    rw [this] at hf
    cases neg
    · simp at hf
    · simp at hf
  · cases hk

/-- **C104** for decimal numbers of `float` fields that are doubles: the default is the nearest float. Full statement: for all numbers. -/
theorem C104_float_partial {neg : Bool} {n : Nat} {e : Int} {t r : Str} (h : Decimal neg n e t) (hr : Delim r) (hq : NoSpecial (t ++ r))
    {b : Ast.Builtin} (hb : b = .float ∨ b = .float32)
    (hd : ∃ z, fUnits 11 52 z * 10 ^ (-e).toNat = n * 10 ^ e.toNat * fOne 11 52) :
    ∃ s, scalar (t ++ r) = some (r, s) ∧ ∀ k, kindOf (.builtin b) (some (.scalar s)) = some k →
      ∃ y : SVal .f32, k = .scalar .f32 (some y) ∧ Meant .f32 y neg (n * 10 ^ e.toNat) (10 ^ (-e).toNat) := by
  refine ⟨_, scalar_eq (.float h.text) hr hq, fun k hk => ?_⟩
  obtain ⟨y, hy, hn⟩ := C34_decimal_float hb _ k hk
  refine ⟨y, hy, ?_⟩
  rw [Meant, if_pos rfl]
  rw [decF64_neg] at hn
  have hq' : 0 < 10 ^ (-e).toNat := Nat.pow_pos (by decide)
  have hfin : roundBits 11 52 (n * 10 ^ e.toNat) (10 ^ (-e).toNat) < (2 ^ 11 - 1) * 2 ^ 52 := by
    obtain ⟨y', hy', _⟩ := kindOf_literal hk
    have hf : f64Finite (decF64 neg n e).val = true := by
      rcases hb with rfl | rfl
      all_goals
        simp only [builtinSTy, literal] at hy'
        split at hy'
        · rename_i hc
          exact (Bool.and_eq_true _ _ ▸ hc).1
        · cases hy'
    unfold f64Finite at hf
    rw [decF64_mod] at hf
    have hle : roundBits 11 52 (n * 10 ^ e.toNat) (10 ^ (-e).toNat) ≤ (2 ^ 11 - 1) * 2 ^ 52 := Nat.min_le_right _ _
    have : roundBits 11 52 (n * 10 ^ e.toNat) (10 ^ (-e).toNat) / 2 ^ 52 ≠ 2047 := by simpa using hf
    omega
  obtain ⟨z, hz⟩ := hd
  have hx := roundBits_exact 11 52 _ _ hq' (by decide) hfin z hz
  have hu : fUnits 11 52 (decF64 neg n e).val = fUnits 11 52 (roundBits 11 52 (n * 10 ^ e.toNat) (10 ^ (-e).toNat)) := by
    rw [← decF64_mod neg]
    unfold fUnits
    rw [Nat.mod_mod, Nat.mod_mod_of_dvd _ (show 2 ^ 52 ∣ 2 ^ 63 by decide)]
  refine hn.scale (by rw [fOne_double]; exact Nat.two_pow_pos _) ?_
  rw [hu, hx]

/-- **C104** for decimal numbers of integer fields: the default is a number that is the same as the number written when both are read
as a double (the one with the fewest digits, see `Shown`). Full statement: it is the number written. -/
theorem C104_double_integer_partial {neg : Bool} {n : Nat} {e : Int} {t r : Str} (h : Decimal neg n e t) (hr : Delim r) (hq : NoSpecial (t ++ r))
    {b : Ast.Builtin} (hb : docRange b ≠ none) :
    ∃ s, scalar (t ++ r) = some (r, s) ∧ ∀ k, kindOf (.builtin b) (some (.scalar s)) = some k →
      ∃ (y : SVal (builtinSTy b)) (m : Nat), k = .scalar (builtinSTy b) (some y) ∧ y.int = signed neg m ∧
        roundBits 11 52 m 1 = roundBits 11 52 (n * 10 ^ e.toNat) (10 ^ (-e).toNat) := by
  refine ⟨_, scalar_eq (.float h.text) hr hq, fun k hk => ?_⟩
  obtain ⟨y, hy, hk⟩ := kindOf_literal hk
  have ht : builtinSTy b ≠ .f32 ∧ builtinSTy b ≠ .f64 := by cases b <;> first | exact absurd rfl hb | decide
  cases hs : shown (decF64 neg n e).val with
  | none =>
    exfalso
    have : ∀ sg w, wholeLit sg w (decF64 neg n e).val = none := by
      intro sg w
      unfold wholeLit
      split
      · rfl
      · rw [hs]; rfl
    cases b <;> first | exact absurd rfl hb | simp [literal, builtinSTy, this] at hy
  | some m =>
    rw [literal_whole ht hs (decF64_neg ..)] at hy
    split at hy
    · cases hy
    · refine ⟨y, m, hk, intLit_int ht hy, ?_⟩
      rw [(shown_some hs).2.2.1, decF64_mod]

/-- **C104** for decimal numbers of integer fields that are whole and below `2 ^ 53`: they are taken exactly when they are in the range of
the type (and no sign stands before an unsigned number), and the default is the number. Full statement: for all numbers. -/
theorem C104_whole_partial {neg : Bool} {n : Nat} {e : Int} {t r : Str} (h : Decimal neg n e t) (hr : Delim r) (hq : NoSpecial (t ++ r))
    {b : Ast.Builtin} {sz : Nat} {lo hi : Int} (hb : docRange b = some (sz, lo, hi))
    {N : Nat} (hN : n * 10 ^ e.toNat = N * 10 ^ (-e).toNat) (hlt : N < 2 ^ 53) :
    ∃ s, scalar (t ++ r) = some (r, s) ∧
      ((∃ k, kindOf (.builtin b) (some (.scalar s)) = some k) ↔ lo ≤ signed neg N ∧ signed neg N ≤ hi ∧ (neg = true → lo < 0)) ∧
      ∀ k, kindOf (.builtin b) (some (.scalar s)) = some k →
        ∃ y, k = .scalar (builtinSTy b) (some y) ∧ Meant (builtinSTy b) y neg (n * 10 ^ e.toNat) (10 ^ (-e).toNat) := by
  have ht : builtinSTy b ≠ .f32 ∧ builtinSTy b ≠ .f64 := by
    cases b <;> simp only [docRange, reduceCtorEq] at hb <;> decide
  have hq' : 0 < 10 ^ (-e).toNat := Nat.pow_pos (by decide)
  have hround : (decF64 neg n e).val % 2 ^ 63 = roundBits 11 52 N 1 := by
    rw [decF64_mod, hN]
    have := Src.roundBits_scale 11 52 N 1 (10 ^ (-e).toNat) hq'
    rwa [Nat.one_mul] at this
  have hu : f64Units (decF64 neg n e).val = N * 2 ^ 1074 := by
    rw [← f64Units_mod, hround, whole_exact (Nat.le_of_lt hlt)]
  have hf : f64Finite (decF64 neg n e).val = true := by
    unfold f64Finite
    rw [hround]
    have := roundBits_finite 11 52 N 53 hlt (by decide) (by decide)
    have : roundBits 11 52 N 1 / 2 ^ 52 ≠ 2047 := by omega
    simpa using this
  have hs : shown (decF64 neg n e).val = some N := by
    have hdiv : f64Units (decF64 neg n e).val / 2 ^ 1074 = N := by rw [hu]; exact Nat.mul_div_cancel _ (Nat.two_pow_pos _)
    have := shown_small hf (by rw [hu]; exact Nat.mul_mod_left _ _) (by rw [hdiv]; exact hlt)
    rw [this, hdiv]
  have hl := literal_whole ht hs (decF64_neg ..)
  refine ⟨_, scalar_eq (.float h.text) hr hq, ?_, fun k hk => ?_⟩
  · have hr' := literal_range hb (signed neg N)
    have hneg : negatives (builtinSTy b) = false ↔ ¬ lo < 0 := by
      cases b <;> simp only [docRange, reduceCtorEq, Option.some.injEq, Prod.mk.injEq] at hb <;> obtain ⟨_, rfl, _⟩ := hb <;> decide
    have hk : (∃ k, kindOf (.builtin b) (some (.scalar (.float (decF64 neg n e)))) = some k) ↔
        ∃ y, literal (builtinSTy b) (.float (decF64 neg n e)) = some y :=
      ⟨fun ⟨k, hk⟩ => (kindOf_literal hk).imp fun _ h => h.1, fun ⟨y, hy⟩ => ⟨_, literal_kindOf hy⟩⟩
    rw [hk, hl]
    split
    · rename_i hc
      refine iff_of_false (by rintro ⟨_, h⟩; cases h) fun h' => ?_
      exact (hneg.mp hc.2) (h'.2.2 hc.1)
    · rename_i hc
      rw [hr']
      refine ⟨fun h' => ⟨h'.1, h'.2, fun hn => ?_⟩, fun h' => ⟨h'.1, h'.2.1⟩⟩
      by_contra hlo
      exact hc ⟨hn, hneg.mpr hlo⟩
  · obtain ⟨y, hy, hk⟩ := kindOf_literal hk
    refine ⟨y, hk, ?_⟩
    rw [hl] at hy
    split at hy
    · cases hy
    · have hi := intLit_int ht hy
      unfold Meant
      rw [if_neg ht.1, if_neg ht.2, hi, hN]
      unfold signed
      split
      · push_cast; ring
      · push_cast; ring

end

section
attribute [local instance] asciiEnv

/-- **C104 is false of the code.** Three defaults that are not what is written. A `ulong` of `2 ^ 63`, written as a decimal number, is
9223372036854776000. A number below 1 makes an `int` of 1. A `float` just above the middle between two floats is the lower one:
it is rounded twice. -/
theorem C104_refuted :
    (scalar c!"9223372036854775808.0;").map (fun x => (x.1, kindOf (.builtin .ulong) (some (.scalar x.2)))) =
      some (c!";", some (.scalar .u64 (some (Fin.ofNat _ 9223372036854776000)))) ∧
    (scalar c!"0.99999999999999999999;").map (fun x => (x.1, kindOf (.builtin .int) (some (.scalar x.2)))) =
      some (c!";", some (.scalar .i32 (some (Fin.ofNat _ 1)))) ∧
    (scalar c!"1.0000000596046447753906250000001;").map (fun x => (x.1, kindOf (.builtin .float) (some (.scalar x.2)))) =
      some (c!";", some (.scalar .f32 (some (Fin.ofNat _ 0x3F800000)))) ∧
    ¬ Meant .f32 (Fin.ofNat _ 0x3F800000) false 10000000596046447753906250000001 (10 ^ 31) := by
  refine ⟨by kernel_rfl, by kernel_rfl, by kernel_rfl, fun h => ?_⟩
  have := h.near 0x3F800001
  revert this
  decide +kernel

/-- `-5.0` for an `int` field, which is taken, and for a `uint` field, which is not. -/
example : (scalar c!"-5.0;").map (fun x => (x.1, kindOf (.builtin .int) (some (.scalar x.2)), kindOf (.builtin .uint) (some (.scalar x.2)))) =
    some (c!";", some (.scalar .i32 (some (Fin.ofNat _ (2 ^ 32 - 5)))), none) := by kernel_rfl

/-- `-0.0` is 0 for an `int` field and refused for a `uint` field (`-0u32`); `12e2` is 1200 for a `short` field. -/
example : (scalar c!"-0.0;").map (fun x => (x.1, kindOf (.builtin .int) (some (.scalar x.2)), kindOf (.builtin .uint) (some (.scalar x.2)))) =
      some (c!";", some (.scalar .i32 (some 0)), none) ∧
    (scalar c!"12e2;").map (fun x => (x.1, kindOf (.builtin .short) (some (.scalar x.2)))) =
      some (c!";", some (.scalar .i16 (some (Fin.ofNat _ 1200)))) := ⟨by kernel_rfl, by kernel_rfl⟩

/-- The hypotheses hold: `-0x1F` for integers, `-12.5e1` (which is -125 and a double) for decimal numbers. -/
example : IntText (-31) c!"-0x1F" ∧ NoSpecial (c!"-0x1F" ++ c!";") ∧ Delim c!";" ∧ Decimal true 125 0 c!"-12.5e1" ∧ NoSpecial (c!"-12.5e1" ++ c!";") ∧
    (∃ z, fUnits 11 52 z * 10 ^ (-0 : Int).toNat = 125 * 10 ^ (0 : Int).toNat * fOne 11 52) ∧
    docRange .byte = some (1, -128, 127) ∧ 125 * 10 ^ (0 : Int).toNat = 125 * 10 ^ (-0 : Int).toNat :=
  ⟨.hex (sg := c!"-") (ds := c!"1F") .minus (.inl rfl) (by unfold HexDigits; decide) (by decide) (by decide), noSpecial_ascii (by decide +kernel),
    ⟨';', [], rfl, by decide⟩,
    .pointExp (sg := c!"-") (ip := c!"12") (fp := c!"5") (et := c!"e1") (e := 1) .minus (by unfold Digits; decide)
    (by unfold Digits; decide) (by decide) (.mk (sg := []) (ds := c!"1") .none (.inl rfl) (by unfold Digits; decide)
      (by decide)), noSpecial_ascii (by decide +kernel), ⟨0x405f400000000000, by decide +kernel⟩, rfl, rfl⟩

/-- `2.5` is refused for an `int` field. -/
example : (scalar c!"2.5;").map (fun x => (x.1, kindOf (.builtin .int) (some (.scalar x.2)))) = some (c!";", none) := by kernel_rfl

end

end Butte
