import Verif.Rt.Scalar
/-
Rounding of numbers to IEEE 754 floats, as done by `str::parse::<f64>`, by rustc for a float literal, and by an
`as f32` cast: round to nearest, ties to even.
-/
namespace Butte

/-- `n / d` rounded to the nearest integer, ties to even. -/
def roundHalfEven (n d : Nat) : Nat :=
  if 2 * (n % d) < d then n / d
  else if d < 2 * (n % d) then n / d + 1
  else if (n / d) % 2 = 0 then n / d else n / d + 1

/-- Bit pattern (without sign) of the float nearest to `p / q`, for a format with `e` exponent bits and `k`
mantissa bits. `p / q` is first expressed in units of the smallest subnormal. -/
def roundBits (e k p q : Nat) : Nat :=
  let n := p * 2 ^ (k + (2 ^ (e - 1) - 1) - 1)
  let sh := Nat.log2 (n / q) - k
  min (sh * 2 ^ k + roundHalfEven n (q * 2 ^ sh)) ((2 ^ e - 1) * 2 ^ k)

/-- The magnitude of a finite `f64` bit pattern in units of `2 ^ -1074`. -/
def f64Units (bits : Nat) : Nat :=
  let mg := bits % 2 ^ 63
  let ex := mg / 2 ^ 52
  let man := mg % 2 ^ 52
  if ex = 0 then man else (2 ^ 52 + man) * 2 ^ (ex - 1)

/-- Not infinite and not NaN. -/
def f64Finite (bits : Nat) : Bool := (bits % 2 ^ 63) / 2 ^ 52 != 2047

/-- `x as f32` for a finite `f64` (the result may be infinite). -/
def f64ToF32 (bits : Nat) : Nat :=
  (if bits / 2 ^ 63 % 2 = 1 then 2 ^ 31 else 0) + roundBits 8 23 (f64Units bits) (2 ^ 1074)

end Butte
