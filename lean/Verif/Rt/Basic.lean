/-
Machine-level vocabulary shared by all models of the `butte` runtime: build profiles, results with
explicit panics, fixed-width arithmetic, byte strings and slices.
-/
namespace Butte

/-- Cargo build profile. `debug`: `debug_assert!` is active and integer overflow panics.
`release`: `debug_assert!` is compiled out and integer arithmetic wraps. -/
inductive Mode where
  | debug
  | release
deriving DecidableEq, Repr

/-- butte/src/error.rs 5-20: the error enum. -/
inductive Error where
  | outOfBounds
  | nonUtf8String
  | requiredFieldMissing (name : String)
  | nonNullTerminatedString
  | unknownEnumVariant
  | unknownUnionVariant
  | noTypeDefaultValue
deriving DecidableEq, Repr

/-- Outcome of a Rust call: a normal value, an `Err(e)` result, or a panic. -/
inductive Res (α : Type u) where
  | ok (a : α)
  | err (e : Error)
  | panic
deriving DecidableEq, Repr

namespace Res

/-- Sequencing; models both `?` on `Result` and the propagation of panics. -/
@[inline] def bind : Res α → (α → Res β) → Res β
  | ok a, f => f a
  | err e, _ => err e
  | panic, _ => panic

instance : Monad Res where
  pure := ok
  bind := Res.bind

@[simp] theorem pure_eq (a : α) : (pure a : Res α) = ok a := rfl
@[simp] theorem ok_bind (a : α) (f : α → Res β) : (ok a >>= f) = f a := rfl
@[simp] theorem err_bind (e) (f : α → Res β) : ((err e : Res α) >>= f) = err e := rfl
@[simp] theorem panic_bind (f : α → Res β) : ((panic : Res α) >>= f) = panic := rfl

instance : LawfulMonad Res := LawfulMonad.mk'
  (id_map := by intro α x; cases x <;> rfl)
  (pure_bind := by intros; rfl)
  (bind_assoc := by intro α β γ x f g; cases x <;> rfl)

/-- `Result::expect` / `Option::expect`: an error becomes a panic. -/
def expect : Res α → Res α
  | ok a => ok a
  | err _ => panic
  | panic => panic

/-- `Result::unwrap_or`. -/
def unwrapOr (d : α) : Res α → Res α
  | ok a => ok a
  | err _ => ok d
  | panic => panic

/-- The call returned (normally or with `Err`), i.e. did not panic. -/
def NoPanic (r : Res α) : Prop := r ≠ panic

theorem bind_eq_ok {x : Res α} {f : α → Res β} {b : β} :
    (x >>= f) = ok b ↔ ∃ a, x = ok a ∧ f a = ok b := by
  cases x <;> simp

end Res

/-- `debug_assert!(c)`. -/
def debugAssert (m : Mode) (c : Bool) : Res Unit :=
  if m = .debug ∧ c = false then .panic else .ok ()

/-- `assert!(c)`. -/
def assert (c : Bool) : Res Unit := if c then .ok () else .panic

/-- Unsigned `w`-bit addition: overflow panics in debug, wraps in release. -/
def addW (w : Nat) (m : Mode) (a b : Nat) : Res Nat :=
  if a + b < 2 ^ w then .ok (a + b)
  else match m with
    | .debug => .panic
    | .release => .ok ((a + b) % 2 ^ w)

/-- Unsigned `w`-bit subtraction: underflow panics in debug, wraps in release. -/
def subW (w : Nat) (m : Mode) (a b : Nat) : Res Nat :=
  if b ≤ a then .ok (a - b)
  else match m with
    | .debug => .panic
    | .release => .ok ((2 ^ w + a - b) % 2 ^ w)

/-- Unsigned `w`-bit multiplication: overflow panics in debug, wraps in release. -/
def mulW (w : Nat) (m : Mode) (a b : Nat) : Res Nat :=
  if a * b < 2 ^ w then .ok (a * b)
  else match m with
    | .debug => .panic
    | .release => .ok ((a * b) % 2 ^ w)

/-- `usize` arithmetic (64-bit target). -/
abbrev addU := addW 64
@[inherit_doc addU] abbrev subU := subW 64
@[inherit_doc addU] abbrev mulU := mulW 64

/-- Largest length of a Rust slice or `Vec` (`isize::MAX`). -/
def isizeMax : Nat := 2 ^ 63 - 1

/-- Value of a `w`-bit pattern as a two's complement signed integer. -/
def toSigned (w : Nat) (n : Nat) : Int := if n < 2 ^ (w - 1) then (n : Int) else (n : Int) - 2 ^ w

/-- `w`-bit two's complement pattern of an integer (`as` cast). -/
def ofSigned (w : Nat) (i : Int) : Nat := (i % (2 ^ w : Int)).toNat

/-- Signed `w`-bit subtraction: overflow panics in debug, wraps in release. The result is the integer. -/
def subS (w : Nat) (m : Mode) (a b : Int) : Res Int :=
  if -(2 ^ (w - 1) : Int) ≤ a - b ∧ a - b < 2 ^ (w - 1) then .ok (a - b)
  else match m with
    | .debug => .panic
    | .release => .ok (toSigned w (ofSigned w (a - b)))

/-- Byte strings (`&[u8]`, `Vec<u8>`). -/
abbrev Bytes := List UInt8

/-- A byte string that can exist as a Rust slice. -/
def Bytes.Valid (b : Bytes) : Prop := b.length ≤ isizeMax

/-- Little-endian bytes of the low `k` bytes of `n`. -/
def leBytes : Nat → Nat → Bytes
  | 0, _ => []
  | k + 1, n => UInt8.ofNat n :: leBytes k (n / 256)

/-- Number denoted by little-endian bytes. -/
def leNat : Bytes → Nat
  | [] => 0
  | b :: bs => b.toNat + 256 * leNat bs

/-- `slice.get(a..b)`: `None` (here mapped by `.ok_or(OutOfBounds)`) if `a > b` or `b > len`. -/
def sliceGet (s : Bytes) (a b : Nat) : Res Bytes :=
  if a ≤ b ∧ b ≤ s.length then .ok ((s.drop a).take (b - a)) else .err .outOfBounds

/-- `&slice[a..b]`: panics if `a > b` or `b > len`. -/
def sliceIdx (s : Bytes) (a b : Nat) : Res Bytes := (sliceGet s a b).expect

/-- Overwrite `s[a .. a + bs.len()]` by `bs` (caller has checked the range). -/
def splice (s : Bytes) (a : Nat) (bs : Bytes) : Bytes :=
  s.take a ++ bs ++ s.drop (a + bs.length)

end Butte
