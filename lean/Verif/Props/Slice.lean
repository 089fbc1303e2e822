import Verif.Rt.Slice
import Verif.Rt.Sample
import Verif.Props.Iter
/-
Property C120: slices of vectors are their items, for arbitrary bytes.
-/
namespace Butte

/-- **C120, slices are what `get` gives**: `safe_slice` returns a slice exactly if the length can be read and every item can be
read with `get`, and then it holds those items, in order and none besides. -/
theorem C120_slice_get (m : Mode) (t : STy) (v : Vec (.scalar t)) (hv : v.buf.Valid)
    (xs : List (SVal t)) : v.safeSlice m = .ok xs ↔
      v.len m = .ok xs.length ∧ ∀ i (h : i < xs.length), v.get m i = .ok xs[i] := by
  constructor
  · intro h
    have hn : ∃ n, v.len m = .ok n := by
      unfold Vec.safeSlice followSlice at h
      obtain ⟨_, _, h⟩ := Res.bind_eq_ok.mp h
      obtain ⟨n, hn, _⟩ := Res.bind_eq_ok.mp h
      exact ⟨n, hn⟩
    obtain ⟨n, hn⟩ := hn
    rw [Vec.safeSlice_eq hv hn] at h
    split at h
    · rename_i hc
      cases h
      refine ⟨by simpa using hn, fun i hi => ?_⟩
      have hi : i < n := by simpa using hi
      have hm : (i + 1) * t.size ≤ n * t.size := Nat.mul_le_mul_right _ hi
      rw [Nat.add_mul, Nat.one_mul] at hm
      rw [Vec.get_scalar hv hn hi, if_pos (by omega)]
      simp
    · cases h
  · rintro ⟨hn, hg⟩
    obtain ⟨h1, -, -⟩ := Vec.len_inside hv hn
    have hc : v.loc + 4 + xs.length * t.size ≤ v.buf.length := by
      cases hx : xs.length with
      | zero => omega
      | succ k =>
        have := hg k (by omega)
        rw [Vec.get_scalar hv hn (by omega)] at this
        split at this
        · rw [Nat.add_mul, Nat.one_mul]; omega
        · cases this
    rw [Vec.safeSlice_eq hv hn, if_pos hc]
    congr 1
    refine List.ext_getElem (by simp) fun i hi hi' => ?_
    have := hg i hi'
    rw [Vec.get_scalar hv hn hi'] at this
    split at this
    · injection this with this
      rw [← this]; simp
    · cases this

/-- **C120, failures**: with a length that can be read, `safe_slice` does not panic, and fails (with `OutOfBounds`) exactly if
`get` fails for some item, and then with `OutOfBounds` too. -/
theorem C120_slice_fails (m : Mode) (t : STy) (v : Vec (.scalar t)) (hv : v.buf.Valid) (n : Nat)
    (hn : v.len m = .ok n) : v.safeSlice m ≠ .panic ∧
      ∀ x, v.safeSlice m = .err x ↔ x = .outOfBounds ∧ ∃ i, i < n ∧ v.get m i = .err .outOfBounds := by
  obtain ⟨h1, -, -⟩ := Vec.len_inside hv hn
  rw [Vec.safeSlice_eq hv hn]
  refine ⟨by split <;> nofun, fun x => ?_⟩
  split
  · rename_i hc
    refine ⟨nofun, ?_⟩
    rintro ⟨-, i, hi, h⟩
    have hm : (i + 1) * t.size ≤ n * t.size := Nat.mul_le_mul_right _ hi
    rw [Nat.add_mul, Nat.one_mul] at hm
    rw [Vec.get_scalar hv hn hi, if_pos (by omega)] at h
    cases h
  · rename_i hc
    refine ⟨fun h => ?_, fun h => by rw [h.1]⟩
    cases h
    cases n with
    | zero => omega
    | succ k =>
      refine ⟨rfl, k, by omega, ?_⟩
      rw [Nat.add_mul, Nat.one_mul] at hc
      rw [Vec.get_scalar hv hn (by omega), if_neg (by omega)]

/-- **C120, unreadable lengths**: if the length cannot be read, `safe_slice` fails as reading it does. (`iter` takes such a
vector for an empty one, C05_unreadable_length.) -/
theorem C120_slice_unreadable (m : Mode) (t : STy) (v : Vec (.scalar t)) (x : Error) :
    (v.len m = .err x → v.safeSlice m = .err x) ∧ (v.len m = .panic → v.safeSlice m = .panic) := by
  have hd : debugAssert m (decide (0 < t.size)) = .ok () := by
    unfold debugAssert; rw [if_neg]; simp [t.size_pos]
  unfold Vec.len Vec.safeSlice followSlice
  rw [hd]
  simp only [Res.ok_bind]
  exact ⟨fun h => by rw [h]; rfl, fun h => by rw [h]; rfl⟩

/-- **C120, iteration**: a loop over a vector whose slice can be taken sees the items of the slice. -/
theorem C120_slice_iter (m : Mode) (t : STy) (v : Vec (.scalar t)) (hv : v.buf.Valid)
    (xs : List (SVal t)) (h : v.safeSlice m = .ok xs) :
    ∃ it, v.iter m = .ok it ∧ Collects m it (xs.map .ok) := by
  obtain ⟨hn, hg⟩ := (C120_slice_get m t v hv xs).mp h
  obtain ⟨it, ys, h1, h2, h3, h4⟩ := C05_iteration_is_get m (.scalar t) v xs.length hv t.size_pos hn
    (fun _ i hi => by rw [hg i hi]; nofun)
  have h5 : ∀ i (hi : i < xs.length), ys[i]? = some (.ok xs[i]) := fun i hi => ((h4 i hi).1 xs[i]).mp (hg i hi)
  have key : ∀ (xs : List (SVal t)) (ys : List (Except Error (SVal t))), ys.length = xs.length →
      (∀ i (hi : i < xs.length), ys[i]? = some (.ok xs[i])) → ys = xs.map .ok := by
    intro xs ys h3 h5
    refine List.ext_getElem? fun i => ?_
    by_cases hi : i < xs.length
    · rw [h5 i hi]; simp [hi]
    · rw [List.getElem?_eq_none (by omega), List.getElem?_eq_none (by simpa using hi)]
  have e := key xs ys h3 h5
  exact ⟨it, h1, e ▸ h2⟩

/-- A length and three numbers, of which the last is cut off in the second. -/
example (m : Mode) : Vec.safeSlice m (t := .u16) ⟨[9, 3, 0, 0, 0, 1, 0, 2, 0, 3, 1], 1⟩ =
      .ok [Fin.ofNat _ 1, Fin.ofNat _ 2, Fin.ofNat _ 259] ∧
    Vec.len m (e := .scalar .u16) ⟨[9, 3, 0, 0, 0, 1, 0, 2, 0, 3], 1⟩ = .ok 3 ∧
    Vec.safeSlice m (t := .u16) ⟨[9, 3, 0, 0, 0, 1, 0, 2, 0, 3], 1⟩ = .err .outOfBounds ∧
    Vec.len m (e := .scalar .u16) ⟨[9, 3, 0], 1⟩ = .err .outOfBounds ∧
    Bytes.Valid [9, 3, 0, 0, 0, 1, 0, 2, 0, 3, 1] := by
  cases m <;> exact ⟨rfl, rfl, rfl, rfl, by decide⟩

end Butte
