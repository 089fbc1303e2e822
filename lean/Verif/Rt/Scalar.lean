import Verif.Rt.Basic
/-
butte/src/endian_scalar.rs, push.rs: scalar types and the values that can be pushed.
-/
namespace Butte

/-- The scalar types with an `EndianScalar` impl (endian_scalar.rs 63-70, 72-139). -/
inductive STy where
  | bool | u8 | i8 | u16 | i16 | u32 | i32 | u64 | i64 | f32 | f64
deriving DecidableEq, Repr

/-- `size_of::<T>()`, which equals `align_of::<T>()` for these types on the modelled target. -/
def STy.size : STy → Nat
  | .bool | .u8 | .i8 => 1
  | .u16 | .i16 => 2
  | .u32 | .i32 | .f32 => 4
  | .u64 | .i64 | .f64 => 8

/-- Number of values of the type: two for `bool`, all bit patterns otherwise. -/
def STy.card : STy → Nat
  | .bool => 2
  | t => 2 ^ (8 * t.size)

theorem STy.card_pos (t : STy) : 0 < t.card := by cases t <;> decide

instance (t : STy) : NeZero t.card := ⟨Nat.pos_iff_ne_zero.mp t.card_pos⟩

/-- A value of scalar type `t`, given by its bit pattern (two's complement, IEEE 754). -/
abbrev SVal (t : STy) := Fin t.card

/-- IEEE 754 NaN test on a bit pattern with `e` exponent bits and `k` mantissa bits. -/
def isNaNBits (e k : Nat) (n : Nat) : Bool :=
  (n / 2 ^ k) % 2 ^ e == 2 ^ e - 1 && n % 2 ^ k != 0

/-- IEEE 754 `==` on bit patterns: false on NaN, true on equal patterns and on `+0 == -0`. -/
def floatEqBits (e k : Nat) (a b : Nat) : Bool :=
  !isNaNBits e k a && !isNaNBits e k b && (a == b || (a % 2 ^ (e + k) == 0 && b % 2 ^ (e + k) == 0))

/-- Rust's `PartialEq::eq` on the scalar type. -/
def SVal.eqv {t : STy} (a b : SVal t) : Bool :=
  match t with
  | .f32 => floatEqBits 8 23 a.val b.val
  | .f64 => floatEqBits 11 52 a.val b.val
  | _ => a.val == b.val

/-- Bytes that `emplace_scalar` stores for a value (endian_scalar.rs 155-162, little-endian target). -/
def SVal.bytes {t : STy} (v : SVal t) : Bytes := leBytes t.size v.val

/-- Value denoted by the first `size_of::<T>()` bytes. For `bool` this is the `u8 != 0` conversion of
`Follow for bool` (primitives.rs 334-340); the crate never calls `read_scalar::<bool>`. -/
def SVal.ofBytes (t : STy) (bs : Bytes) : SVal t :=
  let n := leNat (bs.take t.size)
  Fin.ofNat t.card (if t = .bool then (if n = 0 then 0 else 1) else n)

/-- endian_scalar.rs 155-162 `emplace_scalar`: `&mut s[..sz]` panics when too short, then stores. -/
def emplaceScalar {t : STy} (s : Bytes) (x : SVal t) : Res Bytes :=
  if t.size ≤ s.length then .ok (splice s 0 x.bytes) else .panic

/-- endian_scalar.rs 175-182 `read_scalar`. -/
def readScalar (t : STy) (s : Bytes) : Res (SVal t) :=
  if t.size ≤ s.length then .ok (SVal.ofBytes t (s.take t.size)) else .err .outOfBounds

/-- endian_scalar.rs 167-170 `read_scalar_at`; `loc + size_of::<T>()` is `usize` arithmetic. -/
def readScalarAt (m : Mode) (t : STy) (s : Bytes) (loc : Nat) : Res (SVal t) := do
  let e ← addU m loc t.size
  let buf ← sliceGet s loc e
  readScalar t buf

/-- `read_scalar_at::<T>(..)? as usize` for an unsigned `T`. -/
def readNatAt (m : Mode) (t : STy) (s : Bytes) (loc : Nat) : Res Nat := do
  let v ← readScalarAt m t s loc
  return v.val

/-- Types with a `Push` impl in the crate: scalars (push.rs 59-82) and `WIPOffset<T>`
(primitives.rs 134-143). Generated enums delegate to their base scalar. -/
inductive PTy where
  | sc (t : STy)
  | off
deriving DecidableEq, Repr

/-- push.rs 30-33 `Push::size()` = `size_of::<Output>()`; a `WIPOffset` outputs a `ForwardsUOffset`. -/
def PTy.size : PTy → Nat
  | .sc t => t.size
  | .off => 4

/-- push.rs 34-37 `Push::alignment()` = `align_of::<Output>()`, equal to the size for all these types. -/
def PTy.align (p : PTy) : Nat := p.size

/-- Number of values of a pushable type (`WIPOffset` holds a `u32`). -/
def PTy.card : PTy → Nat
  | .sc t => t.card
  | .off => 2 ^ 32

/-- A pushable value: a scalar's bit pattern, or a `WIPOffset`'s `u32`. -/
abbrev PVal (p : PTy) := Fin p.card

/-- A scalar as a pushable value. -/
def PVal.sc {t : STy} (v : SVal t) : PVal (.sc t) := v

/-- `PartialEq` on pushable values (`WIPOffset` compares its number, primitives.rs 101-105). -/
def PVal.eqv {p : PTy} (a b : PVal p) : Bool :=
  match p with
  | .sc t => SVal.eqv (t := t) a b
  | .off => a.val == b.val

/-- The bytes `Push::push(&self, dst, rest)` writes into `dst` (push.rs 64-67; primitives.rs 137-142:
`(SIZE_UOFFSET + rest.len() - self.value() as usize) as UOffsetT`). -/
def PVal.pushBytes (m : Mode) {p : PTy} (v : PVal p) (restLen : Nat) : Res Bytes :=
  match p with
  | .sc t => .ok (SVal.bytes (t := t) v)
  | .off => do
    let s ← addU m 4 restLen
    let n ← subU m s v.val
    return leBytes 4 (n % 2 ^ 32)

/-- The `u32` scalar value of a number (`as u32`). -/
def u32v (n : Nat) : SVal .u32 := Fin.ofNat (STy.card .u32) n
/-- The `u16` scalar value of a number (`as u16`). -/
def u16v (n : Nat) : SVal .u16 := Fin.ofNat (STy.card .u16) n

end Butte
