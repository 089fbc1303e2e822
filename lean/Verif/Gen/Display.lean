import Verif.Gen.Float
/-
How `Display` writes a whole `f64`: the default of an integer field may be written as a decimal number (`x: int = 5.0`), and
then the literal is `5i32` (codegen.rs 193-201).
-/
namespace Butte

/-- `core::fmt::float` with `flt2dec::strategy::dragon::format_shortest`: the digits of a whole number `v`, which is the float `m`, are made
from the left until rounding them down or up (the rest being zeros) gives a number that is read as `m` again; if both do, the
nearer one is taken, the larger one if they are equally near. The last argument is the number of digits that are left out. -/
def displayGo (m v : Nat) : Nat → Nat
  | 0 => v
  | k + 1 =>
    let lo := v / 10 ^ (k + 1) * 10 ^ (k + 1)
    let hi := lo + 10 ^ (k + 1)
    if roundBits 11 52 hi 1 = m ∧ (roundBits 11 52 lo 1 ≠ m ∨ hi - v ≤ v - lo) then hi
    else if roundBits 11 52 lo 1 = m then lo
    else displayGo m v k

/-- The number that `Display` writes for a finite whole `f64`, without its sign; no such number has more than 309 digits. `none`: it is
not whole, and is written with a point. -/
def shown (bits : Nat) : Option Nat :=
  if f64Finite bits = true ∧ f64Units bits % 2 ^ 1074 = 0 then
    some (displayGo (bits % 2 ^ 63) (f64Units bits / 2 ^ 1074) 309)
  else none

end Butte
