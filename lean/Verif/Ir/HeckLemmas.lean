import Verif.Ir.Heck
import Mathlib.Tactic.Conv
/-
Facts about case conversion.
-/
namespace Butte.Heck

/-- A word as it stands in a snake-case name. -/
def Plain (w : Str) : Prop := w ≠ [] ∧ ∀ c ∈ w, c ≠ '_' ∧ c.isUpper = false

theorem words_plain_last {w : Str} (hw : Plain w) : ∀ (acc : Str) (mode : WordMode), mode ≠ .upper →
    words w acc mode = [acc.reverse ++ w] := by
  induction w with
  | nil => exact absurd rfl hw.1
  | cons c w ih =>
    intro acc mode hm
    obtain ⟨hc, hu⟩ := hw.2 c (by simp)
    cases w with
    | nil => simp [words, hc]
    | cons d w =>
      obtain ⟨hd, hdu⟩ := hw.2 d (by simp)
      have hw' : Plain (d :: w) := ⟨by simp, fun x hx => hw.2 x (by simp [hx])⟩
      rw [words, if_neg hc]
      simp only [hd, hdu, hu, Bool.and_false, decide_false, Bool.or_false, Bool.false_eq_true, if_false, Bool.false_and]
      rw [ih hw' _ _ (by split <;> simp [hm])]
      simp

theorem words_plain_mid {w : Str} (hw : Plain w) (rest : Str) : ∀ (acc : Str) (mode : WordMode), mode ≠ .upper →
    words (w ++ '_' :: rest) acc mode = (acc.reverse ++ w) :: words rest [] .boundary := by
  induction w with
  | nil => exact absurd rfl hw.1
  | cons c w ih =>
    intro acc mode hm
    obtain ⟨hc, hu⟩ := hw.2 c (by simp)
    cases w with
    | nil => simp [words, hc]
    | cons d w =>
      obtain ⟨hd, hdu⟩ := hw.2 d (by simp)
      have hw' : Plain (d :: w) := ⟨by simp, fun x hx => hw.2 x (by simp [hx])⟩
      simp only [List.cons_append] at ih ⊢
      rw [words, if_neg hc]
      simp only [hd, hdu, hu, Bool.and_false, decide_false, Bool.or_false, Bool.false_eq_true, if_false, Bool.false_and]
      rw [ih hw' _ _ (by split <;> simp [hm])]
      simp

theorem words_join {ws : List Str} (h : ∀ w ∈ ws, Plain w) : words (joinWords ws) [] .boundary = ws := by
  induction ws with
  | nil => rfl
  | cons w ws ih =>
    cases ws with
    | nil =>
      rw [joinWords, words_plain_last (h w (by simp)) _ _ (by simp)]
      rfl
    | cons v ws =>
      rw [joinWords, words_plain_mid (h w (by simp)) _ _ _ (by simp), ih (fun x hx => h x (by simp [hx]))]
      · rfl
      · simp

theorem words_out (s : Str) : ∀ (acc : Str) (mode : WordMode), (∀ c ∈ acc, c ≠ '_') → (mode = .upper → acc ≠ []) →
    ∀ w ∈ words s acc mode, w ≠ [] ∧ ∀ c ∈ w, c ≠ '_' := by
  induction s with
  | nil => intro acc mode _ _ w hw; simp [words] at hw
  | cons c rest ih =>
    intro acc mode ha hm w hw
    unfold words at hw
    split at hw
    · exact ih acc mode ha hm w hw
    · rename_i hc
      have hca : ∀ x ∈ c :: acc, x ≠ '_' := by
        intro x hx
        rcases List.mem_cons.mp hx with rfl | hx
        · exact hc
        · exact ha x hx
      have hrev : (c :: acc).reverse ≠ [] ∧ ∀ x ∈ (c :: acc).reverse, x ≠ '_' :=
        ⟨by simp, fun x hx => hca x (List.mem_reverse.mp hx)⟩
      cases rest with
      | nil =>
        simp only [List.mem_singleton] at hw
        subst hw
        exact hrev
      | cons d rest =>
        simp only at hw
        generalize (if c.isLower = true then WordMode.lower else if c.isUpper = true then WordMode.upper else mode) = nm at hw
        split at hw
        · rcases List.mem_cons.mp hw with rfl | hw
          · exact hrev
          · exact ih [] .boundary (by simp) (by simp) w hw
        · split at hw
          · rename_i h
            simp only [Bool.and_eq_true, decide_eq_true_eq] at h
            rcases List.mem_cons.mp hw with rfl | hw
            · refine ⟨by simpa using hm h.1.1, fun x hx => ha x (List.mem_reverse.mp hx)⟩
            · exact ih [c] .boundary (by simpa using hc) (by simp) w hw
          · exact ih (c :: acc) _ hca (by simp) w hw

theorem map_toLower_char {c : Char} (h : c.isUpper = false) : c.toLower = c := by
  unfold Char.toLower
  simp only [Char.isUpper] at h
  rw [dif_neg]
  exact fun hh => absurd hh (by simpa using h)

theorem toLower_plain {c : Char} (h : c ≠ '_') : c.toLower ≠ '_' ∧ c.toLower.isUpper = false := by
  have hu : c.isUpper = true ↔ 65 ≤ c.toNat ∧ c.toNat ≤ 90 := by
    simp only [Char.isUpper, Bool.and_eq_true, decide_eq_true_eq, ge_iff_le, UInt32.le_iff_toNat_le]; rfl
  by_cases hc : c.isUpper = true
  · obtain ⟨n, hn, h1, h2⟩ : ∃ n, c = Char.ofNat n ∧ 65 ≤ n ∧ n ≤ 90 := ⟨c.toNat, by simp, hu.mp hc⟩
    have hall : ∀ k, k < 26 → (Char.ofNat (65 + k)).toLower ≠ '_' ∧ (Char.ofNat (65 + k)).toLower.isUpper = false := by decide
    have := hall (n - 65) (by omega)
    rw [show 65 + (n - 65) = n by omega, ← hn] at this
    exact this
  · have hl : c.toLower = c := map_toLower_char (by simpa using hc)
    rw [hl]
    exact ⟨h, by simpa using hc⟩

theorem map_toLower_plain {w : Str} (h : ∀ c ∈ w, c.isUpper = false) : w.map Char.toLower = w := by
  conv_rhs => rw [← List.map_id w]
  exact List.map_congr_left fun c hc => map_toLower_char (h c hc)

/-- The words of a snake-case name. -/
theorem snake_words (s : Str) : ∃ ws, snake s = joinWords ws ∧ ∀ w ∈ ws, Plain w := by
  refine ⟨_, rfl, ?_⟩
  intro w hw
  obtain ⟨v, hv, rfl⟩ := List.mem_map.mp hw
  obtain ⟨h1, h2⟩ := words_out s [] .boundary (by simp) (by simp) v hv
  refine ⟨by simpa using h1, ?_⟩
  intro c hc
  obtain ⟨d, hd, rfl⟩ := List.mem_map.mp hc
  exact toLower_plain (h2 d hd)

theorem snake_join {ws : List Str} (h : ∀ w ∈ ws, Plain w) : snake (joinWords ws) = joinWords ws := by
  unfold snake
  rw [words_join h]
  congr 1
  conv_rhs => rw [← List.map_id ws]
  exact List.map_congr_left fun w hw => map_toLower_plain fun c hc => ((h w hw).2 c hc).2

/-- Snake case is idempotent. -/
theorem snake_snake (s : Str) : snake (snake s) = snake s := by
  obtain ⟨ws, e, h⟩ := snake_words s
  rw [e, snake_join h]

theorem joinWords_concat {ws : List Str} (hne : ws ≠ []) (w : Str) : joinWords (ws ++ [w]) = joinWords ws ++ '_' :: w := by
  induction ws with
  | nil => exact absurd rfl hne
  | cons v ws ih =>
    cases ws with
    | nil => rfl
    | cons u ws =>
      have := ih (by simp)
      have e1 : joinWords (v :: (u :: ws ++ [w])) = v ++ '_' :: joinWords (u :: ws ++ [w]) := rfl
      have e2 : joinWords (v :: u :: ws) = v ++ '_' :: joinWords (u :: ws) := rfl
      rw [List.cons_append, e1, this, e2]
      simp

/-- A suffix in snake case stays. -/
theorem snake_suffix {s w : Str} (hs : snake s ≠ []) (hw : Plain w) : snake (snake s ++ '_' :: w) = snake s ++ '_' :: w := by
  obtain ⟨ws, e, h⟩ := snake_words s
  have hne : ws ≠ [] := by
    rintro rfl
    exact hs e
  rw [e, ← joinWords_concat hne, snake_join]
  intro v hv
  rcases List.mem_append.mp hv with hv | hv
  · exact h v hv
  · rw [List.mem_singleton.mp hv]; exact hw

end Butte.Heck
