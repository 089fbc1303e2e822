import Verif.Rt.Read
import Verif.Rt.Lemmas
/-
The order of bytes in memory: `EndianScalar` and the casts of slices on machines of either order (endian_scalar.rs, vector.rs 84-119,
163-183, builder.rs 265-283). The rest of the model has no order: it says which bytes are stored and read. That those are the bytes
also on a big-endian machine is C96.
-/
namespace Butte

/-- `target_endian`. -/
inductive Order where
  | little | big
deriving DecidableEq, Repr

/-- The `k` bytes of `n`, the most significant one first. -/
def beBytes : Nat → Nat → Bytes
  | 0, _ => []
  | k + 1, n => UInt8.ofNat (n / 256 ^ k) :: beBytes k n

/-- The number whose bytes these are, the most significant one first. -/
def beNat (bs : Bytes) : Nat := bs.foldl (fun acc b => 256 * acc + b.toNat) 0

namespace Order

/-- The memory of a number of `k` bytes. -/
def store : Order → Nat → Nat → Bytes
  | little => leBytes
  | big => beBytes

/-- The number that memory holds. -/
def load : Order → Bytes → Nat
  | little => leNat
  | big => beNat

end Order

/-- `swap_bytes` of the standard library on a number of `k` bytes. -/
def swapBytes : Nat → Nat → Nat
  | 0, _ => 0
  | k + 1, n => n % 256 * 256 ^ k + swapBytes k (n / 256)

/-- `swap_bytes` on the bits of a value; for the floats this is `byte_swap_f32`, `byte_swap_f64` (endian_scalar.rs 138-150). -/
def SVal.swap {t : STy} (x : SVal t) : SVal t := Fin.ofNat t.card (swapBytes t.size x.val)

/-- endian_scalar.rs 31-135 `EndianScalar::to_little_endian`: nothing for `bool`, `u8` and `i8` (72-74), `to_le` for the other
integers (76-81), and for the floats (83-135) a swap where the target is not little-endian. -/
def toLittleEndian (o : Order) {t : STy} (x : SVal t) : SVal t :=
  match t, o with
  | .bool, _ | .u8, _ | .i8, _ => x
  | _, .little => x
  | _, .big => x.swap

/-- endian_scalar.rs 31-135 `EndianScalar::from_little_endian`, the same way. -/
def fromLittleEndian (o : Order) {t : STy} (x : SVal t) : SVal t :=
  match t, o with
  | .bool, _ | .u8, _ | .i8, _ => x
  | _, .little => x
  | _, .big => x.swap

/-- `*ptr` for a `ptr: *const T`: the value in the first `size_of::<T>()` bytes of memory (`bool` as in `SVal.ofBytes`). -/
def Order.fetch (o : Order) (t : STy) (bs : Bytes) : SVal t :=
  let n := o.load (bs.take t.size)
  Fin.ofNat t.card (if t = .bool then (if n = 0 then 0 else 1) else n)

/-- endian_scalar.rs 155-162 `emplace_scalar` on a machine of order `o`. -/
def emplaceScalarOn (o : Order) {t : STy} (s : Bytes) (x : SVal t) : Res Bytes :=
  if t.size ≤ s.length then .ok (splice s 0 (o.store t.size (toLittleEndian o x).val)) else .panic

/-- endian_scalar.rs 175-182 `read_scalar` on a machine of order `o`. -/
def readScalarOn (o : Order) (t : STy) (s : Bytes) : Res (SVal t) :=
  if t.size ≤ s.length then .ok (fromLittleEndian o (o.fetch t (s.take t.size))) else .err .outOfBounds

/-- vector.rs 101-119: the types that implement `SafeSliceAccess`. -/
def SafeSlice (o : Order) (t : STy) : Prop :=
  match t with
  | .u8 | .i8 => True
  | .bool => False
  | _ => o = .little

/-- vector.rs 95-96: `n` items of memory seen as a slice of `T`, on a machine of order `o`. -/
def castSliceOn (o : Order) (t : STy) : Nat → Bytes → List (SVal t)
  | 0, _ => []
  | n + 1, bs => o.fetch t (bs.take t.size) :: castSliceOn o t n (bs.drop t.size)

/-- vector.rs 86-98 `safe_slice` on a machine of order `o`; the length is read by `read_scalar_at` (endian_scalar.rs 167-170). -/
def safeSliceOn (o : Order) (m : Mode) (t : STy) (buf : Bytes) (loc : Nat) : Res (List (SVal t)) := do
  debugAssert m (0 < t.size)
  let e ← addU m loc 4
  let s ← sliceGet buf loc e
  let len ← readScalarOn o .u32 s
  let a ← addU m loc 4
  let n ← mulU m len.val t.size
  let e ← addU m a n
  let data ← sliceGet buf a e
  return castSliceOn o t len.val data

/-- builder.rs 274-278: the memory of the items of a slice, copied as it is by `create_vector_direct`. -/
def sliceMemory (o : Order) {t : STy} (items : List (SVal t)) : Bytes := (items.map (fun x => o.store t.size x.val)).flatten

/-! ### Lemmas -/

theorem beBytes_succ (k n : Nat) : beBytes (k + 1) n = beBytes k (n / 256) ++ [UInt8.ofNat n] := by
  induction k generalizing n with
  | zero => simp [beBytes]
  | succ k ih =>
    rw [beBytes, ih, beBytes, Nat.div_div_eq_div_mul, Nat.pow_succ, Nat.mul_comm]
    simp

theorem beBytes_eq (k n : Nat) : beBytes k n = (leBytes k n).reverse := by
  induction k generalizing n with
  | zero => rfl
  | succ k ih => rw [beBytes_succ, ih, leBytes, List.reverse_cons]

theorem beNat_append (bs : Bytes) (b : UInt8) : beNat (bs ++ [b]) = 256 * beNat bs + b.toNat := by
  simp [beNat, List.foldl_append]

theorem beNat_reverse (bs : Bytes) : beNat bs.reverse = leNat bs := by
  induction bs with
  | nil => rfl
  | cons b bs ih => rw [List.reverse_cons, beNat_append, ih, leNat, Nat.add_comm]

theorem beNat_eq (bs : Bytes) : beNat bs = leNat bs.reverse := by
  have := beNat_reverse bs.reverse
  rwa [List.reverse_reverse] at this

theorem leNat_append (bs : Bytes) (b : UInt8) : leNat (bs ++ [b]) = leNat bs + 256 ^ bs.length * b.toNat := by
  induction bs with
  | nil => simp [leNat]
  | cons a bs ih =>
    simp only [List.cons_append, leNat, ih, List.length_cons, Nat.pow_succ]
    rw [Nat.mul_add, Nat.add_assoc, ← Nat.mul_assoc, Nat.mul_comm 256 (256 ^ bs.length)]

theorem swapBytes_eq (k n : Nat) : swapBytes k n = leNat (leBytes k n).reverse := by
  induction k generalizing n with
  | zero => rfl
  | succ k ih =>
    rw [swapBytes, ih, leBytes, List.reverse_cons, leNat_append, List.length_reverse, leBytes_length, Nat.add_comm,
      Nat.mul_comm (n % 256)]
    congr 2

theorem swapBytes_lt (k n : Nat) : swapBytes k n < 256 ^ k := by
  rw [swapBytes_eq]
  have := leNat_lt (leBytes k n).reverse
  rwa [List.length_reverse, leBytes_length] at this

theorem leBytes_swapBytes (k n : Nat) : leBytes k (swapBytes k n) = (leBytes k n).reverse := by
  rw [swapBytes_eq]
  have := leBytes_leNat (leBytes k n).reverse
  rwa [List.length_reverse, leBytes_length] at this

theorem swapBytes_swapBytes (k n : Nat) : swapBytes k (swapBytes k n) = n % 256 ^ k := by
  rw [swapBytes_eq, leBytes_swapBytes, List.reverse_reverse, leNat_leBytes]

theorem STy.card_eq {t : STy} (h : t ≠ .bool) : t.card = 256 ^ t.size := by
  cases t <;> first | exact absurd rfl h | decide

theorem SVal.swap_val {t : STy} (h : t ≠ .bool) (x : SVal t) : x.swap.val = swapBytes t.size x.val := by
  have := swapBytes_lt t.size x.val
  rw [← STy.card_eq h] at this
  exact Nat.mod_eq_of_lt this

theorem fetch_little (t : STy) (bs : Bytes) : Order.little.fetch t bs = SVal.ofBytes t bs := rfl

theorem fetch_one {t : STy} (o : Order) (h : t.size = 1) (bs : Bytes) : o.fetch t bs = SVal.ofBytes t bs := by
  cases o with
  | little => rfl
  | big =>
    unfold Order.fetch SVal.ofBytes
    rw [h, Order.load, beNat_eq]
    match bs with
    | [] => rfl
    | b :: bs => simp <;> rfl

theorem toLittleEndian_one {t : STy} (o : Order) (h : t.size = 1) (x : SVal t) : toLittleEndian o x = x := by
  cases t <;> first | rfl | (simp [STy.size] at h)

theorem fromLittleEndian_one {t : STy} (o : Order) (h : t.size = 1) (x : SVal t) : fromLittleEndian o x = x := by
  cases t <;> first | rfl | (simp [STy.size] at h)

theorem toLittleEndian_big {t : STy} (h : t.size ≠ 1) (x : SVal t) : toLittleEndian .big x = x.swap := by
  cases t <;> first | rfl | (simp [STy.size] at h)

theorem fromLittleEndian_big {t : STy} (h : t.size ≠ 1) (x : SVal t) : fromLittleEndian .big x = x.swap := by
  cases t <;> first | rfl | (simp [STy.size] at h)

theorem toLittleEndian_little {t : STy} (x : SVal t) : toLittleEndian .little x = x := by cases t <;> rfl

theorem fromLittleEndian_little {t : STy} (x : SVal t) : fromLittleEndian .little x = x := by cases t <;> rfl

theorem store_one (o : Order) (n : Nat) : o.store 1 n = leBytes 1 n := by
  cases o <;> simp [Order.store, beBytes, leBytes]

theorem ne_bool_of_size {t : STy} (h : t.size ≠ 1) : t ≠ .bool := fun e => h (e ▸ rfl)

/-- What is stored for a value are its little-endian bytes. -/
theorem store_toLittleEndian (o : Order) {t : STy} (x : SVal t) : o.store t.size (toLittleEndian o x).val = x.bytes := by
  by_cases h : t.size = 1
  · rw [toLittleEndian_one o h, h, store_one, SVal.bytes, h]
  · cases o with
    | little => rw [toLittleEndian_little]; rfl
    | big =>
      rw [toLittleEndian_big h, SVal.swap_val (ne_bool_of_size h), Order.store, beBytes_eq, leBytes_swapBytes,
        List.reverse_reverse, SVal.bytes]

/-- What is read from bytes is the value whose little-endian bytes they are. -/
theorem fromLittleEndian_fetch (o : Order) (t : STy) (bs : Bytes) (hl : t.size ≤ bs.length) :
    fromLittleEndian o (o.fetch t bs) = SVal.ofBytes t bs := by
  by_cases h : t.size = 1
  · rw [fromLittleEndian_one o h, fetch_one o h]
  · cases o with
    | little => rw [fromLittleEndian_little, fetch_little]
    | big =>
      have hb := ne_bool_of_size h
      have hlen : (bs.take t.size).length = t.size := by rw [List.length_take]; exact Nat.min_eq_left hl
      have h1 := leNat_lt (bs.take t.size)
      have h2 := leNat_lt (bs.take t.size).reverse
      rw [hlen, ← STy.card_eq hb] at h1
      rw [List.length_reverse, hlen, ← STy.card_eq hb] at h2
      have hf : (Order.big.fetch t bs).val = leNat (bs.take t.size).reverse := by
        unfold Order.fetch
        dsimp only
        rw [if_neg hb, Order.load, beNat_eq]
        exact Nat.mod_eq_of_lt h2
      have hs : leNat ((leBytes t.size (leNat (bs.take t.size).reverse)).reverse) = leNat (bs.take t.size) := by
        have := leBytes_leNat (bs.take t.size).reverse
        rw [List.length_reverse, hlen] at this
        rw [this, List.reverse_reverse]
      rw [fromLittleEndian_big h]
      apply Fin.ext
      rw [SVal.swap_val hb, hf, swapBytes_eq, hs]
      unfold SVal.ofBytes
      dsimp only
      rw [if_neg hb]
      exact (Nat.mod_eq_of_lt h1).symm

theorem castSliceOn_eq {o : Order} {t : STy} (h : ∀ bs, o.fetch t bs = SVal.ofBytes t bs) :
    ∀ n bs, castSliceOn o t n bs = castSlice t n bs
  | 0, _ => rfl
  | n + 1, bs => by rw [castSliceOn, castSlice, h, castSliceOn_eq h n]

theorem size_of_safe {t : STy} {o : Order} (h : SafeSlice o t) : o = .little ∨ t.size = 1 := by
  cases t <;> simp_all [SafeSlice, STy.size]

theorem fetch_of_safe {t : STy} {o : Order} (h : SafeSlice o t) (bs : Bytes) : o.fetch t bs = SVal.ofBytes t bs := by
  rcases size_of_safe h with rfl | h1
  · rfl
  · exact fetch_one o h1 bs

end Butte
