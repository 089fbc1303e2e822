import Verif.Mem.Logic
/-
vector.rs 127-134 `follow_cast_ref`, the one function of butte that makes a reference to a `T` of the caller's choice out of
bytes, on machines with pointers of `w` bits.
-/
namespace Butte.Mem

/-- `size_of::<T>()` and `align_of::<T>()`. Rust's rules for them: the alignment is a power of two and divides the size. -/
structure TypeLayout where
  size : Nat
  align : Nat
  pow : ∃ k, align = 2 ^ k
  dvd : align ∣ size

/-- A `&T`: where in the buffer its bytes begin. The `T` behind it takes `size_of::<T>()` of them. -/
structure CastRef (T : TypeLayout) where
  off : Nat
deriving DecidableEq

namespace CastRef

/-- The reference is inside the buffer. -/
def Inside {T : TypeLayout} (r : CastRef T) (buf : Bytes) : Prop := r.off + T.size ≤ buf.length

/-- It is aligned for `T` if the buffer is at address `addr`. A reference that is not is undefined behaviour. -/
def Aligned {T : TypeLayout} (r : CastRef T) (addr : Nat) : Prop := (addr + r.off) % T.align = 0

/-- The bytes behind the reference. -/
def bytes {T : TypeLayout} (r : CastRef T) (buf : Bytes) : Bytes := (buf.drop r.off).take T.size

end CastRef

/-- vector.rs 127-134 `follow_cast_ref`: `buf.get(loc..loc + sz).ok_or(OutOfBounds)?`, then `&*(buf.as_ptr() as *const T)`. -/
def followCastRef (w : Nat) (m : Mode) (T : TypeLayout) (buf : Bytes) (loc : Nat) : Res (CastRef T) := do
  let e ← addW w m loc T.size
  let _ ← sliceGet buf loc e
  return ⟨loc⟩

section
variable {w : Nat} {m : Mode} {T : TypeLayout} {buf s : Bytes} {loc e : Nat} {x : Error}

theorem castRef_next (h : addW w m loc T.size = .ok e) :
    followCastRef w m T buf loc = (sliceGet buf loc e >>= fun _ => pure ⟨loc⟩) := by
  unfold followCastRef; rw [h]; rfl

theorem castRef_ok (h : addW w m loc T.size = .ok e) (h2 : sliceGet buf loc e = .ok s) :
    followCastRef w m T buf loc = .ok ⟨loc⟩ := by
  rw [castRef_next h, h2]; rfl

theorem castRef_err (h : addW w m loc T.size = .ok e) (h2 : sliceGet buf loc e = .err x) :
    followCastRef w m T buf loc = .err x := by
  rw [castRef_next h, h2]; rfl

theorem castRef_panic (h : addW w m loc T.size = .panic) : followCastRef w m T buf loc = .panic := by
  unfold followCastRef; rw [h]; rfl

end

end Butte.Mem
