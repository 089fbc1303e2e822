import Verif.Gen.Float
import Mathlib.Tactic.Ring
import Mathlib.Tactic.Linarith
import Mathlib.Data.Nat.Log
/-
`roundBits` gives the nearest float. Lemmas for the part of C34 about float defaults.
-/
namespace Butte

/-- The magnitude denoted by a float bit pattern (sign ignored), in units of the smallest subnormal, for a format
with `e` exponent bits and `k` mantissa bits: IEEE 754, 3.4. -/
def fUnits (e k bits : Nat) : Nat :=
  if bits % 2 ^ (e + k) / 2 ^ k = 0 then bits % 2 ^ k
  else (2 ^ k + bits % 2 ^ k) * 2 ^ (bits % 2 ^ (e + k) / 2 ^ k - 1)

/-- How many smallest subnormals make one. -/
def fOne (e k : Nat) : Nat := 2 ^ (k + (2 ^ (e - 1) - 1) - 1)

/-- Distance of two numbers. -/
def dist (a b : Nat) : Nat := (a - b) + (b - a)

theorem roundHalfEven_near (n d : Nat) (hd : 0 < d) (m : Nat) :
    dist (roundHalfEven n d * d) n ≤ dist (m * d) n := by
  have h0 := Nat.div_add_mod n d
  have h1 := Nat.mod_lt n hd
  rw [Nat.mul_comm] at h0
  have hm : m ≤ n / d ∨ n / d + 1 ≤ m := by omega
  have hlo : m ≤ n / d → m * d ≤ n / d * d := fun h => Nat.mul_le_mul_right _ h
  have hhi : n / d + 1 ≤ m → n / d * d + d ≤ m * d := fun h => by
    have := Nat.mul_le_mul_right d h
    rwa [Nat.add_mul, Nat.one_mul] at this
  have hs : (n / d + 1) * d = n / d * d + d := by rw [Nat.add_mul, Nat.one_mul]
  unfold roundHalfEven dist
  split
  · rcases hm with h | h
    · have := hlo h; omega
    · have := hhi h; omega
  · split
    · rw [hs]
      rcases hm with h | h
      · have := hlo h; omega
      · have := hhi h; omega
    · split
      · rcases hm with h | h
        · have := hlo h; omega
        · have := hhi h; omega
      · rw [hs]
        rcases hm with h | h
        · have := hlo h; omega
        · have := hhi h; omega

theorem roundHalfEven_bounds (n d : Nat) : n / d ≤ roundHalfEven n d ∧ roundHalfEven n d ≤ n / d + 1 := by
  unfold roundHalfEven
  split
  · omega
  · split
    · omega
    · split <;> omega

theorem fUnits_compose (e k sh r : Nat) (h1 : sh = 0 ∨ 2 ^ k ≤ r) (h2 : r ≤ 2 ^ (k + 1))
    (hb : sh * 2 ^ k + r < 2 ^ (e + k)) : fUnits e k (sh * 2 ^ k + r) = r * 2 ^ sh := by
  have hk : 0 < 2 ^ k := Nat.two_pow_pos k
  unfold fUnits
  rw [Nat.mod_eq_of_lt hb]
  rw [Nat.pow_succ] at h2
  rcases Nat.lt_or_ge r (2 ^ k) with h | h
  · obtain rfl : sh = 0 := by omega
    simp only [Nat.zero_mul, Nat.zero_add, Nat.pow_zero, Nat.mul_one]
    rw [if_pos (Nat.div_eq_of_lt h), Nat.mod_eq_of_lt h]
  · rcases Nat.lt_or_ge r (2 ^ k * 2) with h' | h'
    · obtain ⟨m, rfl⟩ := Nat.exists_eq_add_of_le h
      have hm : m < 2 ^ k := by omega
      have e1 : sh * 2 ^ k + (2 ^ k + m) = m + 2 ^ k * (sh + 1) := by ring
      rw [e1, Nat.add_mul_div_left _ _ hk, Nat.add_mul_mod_self_left, Nat.div_eq_of_lt hm, Nat.mod_eq_of_lt hm,
        if_neg (by omega), show 0 + (sh + 1) - 1 = sh by omega]
    · obtain rfl : r = 2 ^ k * 2 := by omega
      have e1 : sh * 2 ^ k + 2 ^ k * 2 = 0 + 2 ^ k * (sh + 2) := by ring
      rw [e1, Nat.add_mul_div_left _ _ hk, Nat.add_mul_mod_self_left]
      simp only [Nat.zero_div, Nat.zero_mod, Nat.zero_add, Nat.add_zero]
      rw [if_neg (by omega), show sh + 2 - 1 = sh + 1 by omega, Nat.pow_succ]
      ring

theorem fUnits_grid (e k sh y : Nat) : (0 < sh ∧ fUnits e k y < 2 ^ (k + sh)) ∨ 2 ^ sh ∣ fUnits e k y := by
  have hk : 0 < 2 ^ k := Nat.two_pow_pos k
  have hm : y % 2 ^ k < 2 ^ k := Nat.mod_lt _ hk
  unfold fUnits
  split
  · rcases Nat.eq_zero_or_pos sh with rfl | h
    · right; simp
    · left
      refine ⟨h, Nat.lt_of_lt_of_le hm (Nat.pow_le_pow_right (by omega) (by omega))⟩
  · generalize y % 2 ^ (e + k) / 2 ^ k = ex at *
    rcases Nat.lt_or_ge (ex - 1) sh with h | h
    · left
      refine ⟨by omega, ?_⟩
      calc (2 ^ k + y % 2 ^ k) * 2 ^ (ex - 1) < (2 ^ k + 2 ^ k) * 2 ^ (ex - 1) :=
            Nat.mul_lt_mul_of_pos_right (by omega) (Nat.two_pow_pos _)
        _ = 2 ^ (k + 1 + (ex - 1)) := by rw [Nat.pow_add, Nat.pow_succ]; ring
        _ ≤ 2 ^ (k + sh) := Nat.pow_le_pow_right (by omega) (by omega)
    · right
      exact Dvd.dvd.mul_left (Nat.pow_dvd_pow 2 h) _

/-- The float given by `roundBits`, unless it is an infinity, is as near to `p / q` as any other. -/
theorem roundBits_near (e k p q : Nat) (hq : 0 < q) (he : 0 < e) (hfin : roundBits e k p q < (2 ^ e - 1) * 2 ^ k)
    (y : Nat) : dist (fUnits e k (roundBits e k p q) * q) (p * fOne e k) ≤ dist (fUnits e k y * q) (p * fOne e k) := by
  unfold roundBits at hfin ⊢
  simp only [] at hfin ⊢
  change min (_ * 2 ^ k + roundHalfEven (p * fOne e k) _) _ < _ at hfin
  change dist (fUnits e k (min (_ * 2 ^ k + roundHalfEven (p * fOne e k) _) _) * q) _ ≤ _
  rw [show p * 2 ^ (k + (2 ^ (e - 1) - 1) - 1) = p * fOne e k from rfl] at hfin ⊢
  generalize hn : p * fOne e k = n at *
  generalize hsh : Nat.log2 (n / q) - k = sh at *
  have hlt : sh * 2 ^ k + roundHalfEven n (q * 2 ^ sh) < (2 ^ e - 1) * 2 ^ k := by
    rcases Nat.lt_or_ge (sh * 2 ^ k + roundHalfEven n (q * 2 ^ sh)) ((2 ^ e - 1) * 2 ^ k) with h | h
    · exact h
    · rw [Nat.min_eq_right h] at hfin; omega
  rw [Nat.min_eq_left (Nat.le_of_lt hlt)]
  have hs2 : 0 < 2 ^ sh := Nat.two_pow_pos _
  have hd : 0 < q * 2 ^ sh := Nat.mul_pos hq hs2
  have hb : sh * 2 ^ k + roundHalfEven n (q * 2 ^ sh) < 2 ^ (e + k) := by
    refine Nat.lt_of_lt_of_le hlt ?_
    rw [Nat.pow_add]
    exact Nat.mul_le_mul_right _ (Nat.sub_le _ _)
  have hdiv : n / (q * 2 ^ sh) = n / q / 2 ^ sh := (Nat.div_div_eq_div_mul _ _ _).symm
  -- the integral part
  have hlow : 0 < sh → 2 ^ (k + sh) ≤ n / q := by
    intro h
    have hne : n / q ≠ 0 := by
      intro e0
      rw [e0] at hsh
      simp at hsh
      omega
    have := Nat.log2_self_le hne
    rwa [show Nat.log2 (n / q) = k + sh by omega] at this
  have hhigh : n / q < 2 ^ (k + 1 + sh) := by
    have := Nat.lt_log2_self (n := n / q)
    refine Nat.lt_of_lt_of_le this (Nat.pow_le_pow_right (by omega) (by omega))
  have hr := roundHalfEven_bounds n (q * 2 ^ sh)
  have h1 : sh = 0 ∨ 2 ^ k ≤ roundHalfEven n (q * 2 ^ sh) := by
    rcases Nat.eq_zero_or_pos sh with h | h
    · exact .inl h
    · right
      refine Nat.le_trans ?_ hr.1
      rw [hdiv, Nat.le_div_iff_mul_le hs2, ← Nat.pow_add]
      exact hlow h
  have h2 : roundHalfEven n (q * 2 ^ sh) ≤ 2 ^ (k + 1) := by
    have : n / (q * 2 ^ sh) < 2 ^ (k + 1) := by
      rw [hdiv, Nat.div_lt_iff_lt_mul hs2, ← Nat.pow_add]
      exact hhigh
    omega
  rw [fUnits_compose e k sh _ h1 h2 hb]
  have near := roundHalfEven_near n (q * 2 ^ sh) hd
  have e1 : roundHalfEven n (q * 2 ^ sh) * 2 ^ sh * q = roundHalfEven n (q * 2 ^ sh) * (q * 2 ^ sh) := by ring
  rw [e1]
  rcases fUnits_grid e k sh y with ⟨hpos, hlt'⟩ | ⟨m, hm⟩
  · refine Nat.le_trans (near (2 ^ k)) ?_
    have e2 : 2 ^ k * (q * 2 ^ sh) = 2 ^ (k + sh) * q := by rw [Nat.pow_add]; ring
    rw [e2]
    have a1 : 2 ^ (k + sh) * q ≤ n := by
      have := hlow hpos
      rwa [Nat.le_div_iff_mul_le hq] at this
    have a2 : fUnits e k y * q ≤ 2 ^ (k + sh) * q := Nat.mul_le_mul_right _ (Nat.le_of_lt hlt')
    unfold dist
    omega
  · rw [hm, show 2 ^ sh * m * q = m * (q * 2 ^ sh) by ring]
    exact near m

/-- A number that is a float is rounded to itself. -/
theorem roundBits_exact (e k p q : Nat) (hq : 0 < q) (he : 0 < e) (hfin : roundBits e k p q < (2 ^ e - 1) * 2 ^ k)
    (y : Nat) (hy : fUnits e k y * q = p * fOne e k) : fUnits e k (roundBits e k p q) * q = p * fOne e k := by
  have := roundBits_near e k p q hq he hfin y
  rw [hy] at this
  unfold dist at this
  omega

/-- Numbers below `2 ^ w` do not overflow. -/
theorem roundBits_finite (e k p w : Nat) (hp : p < 2 ^ w)
    (hw : w + (k + (2 ^ (e - 1) - 1) - 1) - k + 2 ≤ 2 ^ e - 1) (h0 : 3 ≤ 2 ^ e - 1) :
    roundBits e k p 1 < (2 ^ e - 1) * 2 ^ k := by
  have hk : 0 < 2 ^ k := Nat.two_pow_pos k
  unfold roundBits
  simp only [Nat.div_one, Nat.one_mul]
  generalize hc : k + (2 ^ (e - 1) - 1) - 1 = c at *
  generalize hsh : Nat.log2 (p * 2 ^ c) - k = sh
  have hN : p * 2 ^ c < 2 ^ (w + c) := by
    rw [Nat.pow_add]; exact Nat.mul_lt_mul_of_pos_right hp (Nat.two_pow_pos c)
  have hr := (roundHalfEven_bounds (p * 2 ^ c) (2 ^ sh)).2
  have hl : Nat.log2 (p * 2 ^ c) = 0 ∨ Nat.log2 (p * 2 ^ c) < w + c := by
    by_cases h : p * 2 ^ c = 0
    · left; rw [h]; rfl
    · right; exact (Nat.log2_lt h).mpr hN
  have hq : p * 2 ^ c / 2 ^ sh < 2 ^ (k + 1) := by
    rw [Nat.div_lt_iff_lt_mul (Nat.two_pow_pos sh), ← Nat.pow_add]
    exact Nat.lt_of_lt_of_le Nat.lt_log2_self (Nat.pow_le_pow_right (by omega) (by omega))
  rw [Nat.pow_succ] at hq
  have hb : sh * 2 ^ k + roundHalfEven (p * 2 ^ c) (2 ^ sh) ≤ (sh + 2) * 2 ^ k := by
    rw [Nat.add_mul]; omega
  rcases Nat.lt_or_ge (sh + 2) (2 ^ e - 1) with h | h
  · refine Nat.lt_of_le_of_lt (Nat.min_le_left _ _) (Nat.lt_of_le_of_lt hb ?_)
    exact Nat.mul_lt_mul_of_pos_right h hk
  · exfalso; omega

theorem f64Units_eq (bits : Nat) : f64Units bits = fUnits 11 52 bits := by
  unfold f64Units fUnits
  simp only []
  rw [Nat.mod_mod_of_dvd bits (show 2 ^ 52 ∣ 2 ^ 63 by decide)]

end Butte
