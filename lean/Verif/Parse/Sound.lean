import Verif.Parse.Exact
/-
What is read was written: tokens, documentation, lists, numbers, strings and types. If a rule succeeds, then the part of
the input it consumed is a way of writing the value it returned. Together with `Complete` this makes the rules exact.
-/
namespace Butte.Parse

open Ast

variable {α β γ : Type}

/-- What the rule consumes is a way of writing what it returns, as long as it leaves something. -/
def Sound (p : P α) (R : α → Str → Prop) : Prop :=
  ∀ i r a, p i = some (r, a) → r ≠ [] → ∃ t, R a t ∧ i = t ++ r

/-- The same even at the end of the input. -/
def SoundEnd (p : P α) (R : α → Str → Prop) : Prop :=
  ∀ i r a, p i = some (r, a) → ∃ t, R a t ∧ i = t ++ r

theorem SoundEnd.sound {p : P α} {R : α → Str → Prop} (h : SoundEnd p R) : Sound p R := fun i r a e _ => h i r a e

/-! ### Single tokens -/

theorem satisfy_inv {f : Char → Bool} {i r : Str} {c : Char} (h : satisfy f i = some (r, c)) :
    i = c :: r ∧ f c = true := by
  cases i with
  | nil => cases h
  | cons d i =>
    rw [satisfy] at h
    split at h
    · cases h; exact ⟨rfl, ‹_›⟩
    · cases h

theorem char_inv {c d : Char} {i r : Str} (h : char c i = some (r, d)) : i = c :: r := by
  obtain ⟨rfl, h2⟩ := satisfy_inv h
  rw [beq_iff_eq] at h2
  rw [h2]

theorem oneOf_inv {l i r : Str} {c : Char} (h : oneOf l i = some (r, c)) : i = c :: r ∧ c ∈ l := by
  obtain ⟨rfl, h2⟩ := satisfy_inv h
  exact ⟨rfl, List.contains_iff_mem.mp h2⟩

theorem tag_inv {t i r a : Str} (h : tag t i = some (r, a)) : i = t ++ r := by
  unfold tag at h
  split at h
  · rename_i hp
    obtain ⟨s, rfl⟩ := List.isPrefixOf_iff_prefix.mp hp
    cases h
    rw [List.drop_left]
  · cases h

theorem tag_none_inv {t i : Str} (h : tag t i = none) : ¬ t <+: i := by
  intro hp
  unfold tag at h
  rw [List.isPrefixOf_iff_prefix.mpr hp] at h
  cases h

theorem takeWhile_inv {f : Char → Bool} {i r a : Str} (h : takeWhile f i = some (r, a)) :
    i = a ++ r ∧ (∀ c ∈ a, f c = true) ∧ Stops f r := by
  unfold takeWhile at h
  cases h
  refine ⟨List.takeWhile_append_dropWhile.symm, fun c hc => ?_, fun c t e => ?_⟩
  · induction i with
    | nil => cases hc
    | cons d i ih =>
      rw [List.takeWhile_cons] at hc
      split at hc
      · rcases List.mem_cons.mp hc with rfl | hc
        · assumption
        · exact ih hc
      · cases hc
  · have := List.head?_dropWhile_not f i
    rw [e] at this
    simpa using this

theorem takeWhile1_inv {f : Char → Bool} {i r a : Str} (h : takeWhile1 f i = some (r, a)) :
    i = a ++ r ∧ (∀ c ∈ a, f c = true) ∧ a ≠ [] ∧ Stops f r := by
  unfold takeWhile1 at h
  split at h
  · cases h
  · rename_i c l e
    have h2 := takeWhile_inv (f := f) (i := i) (r := i.dropWhile f) (a := i.takeWhile f) rfl
    cases h
    exact ⟨h2.1, h2.2.1, by rw [e]; simp, h2.2.2⟩

theorem recognize_inv {p : P α} (hp : Consumes p) {i r a : Str} (h : recognize p i = some (r, a)) :
    ∃ x, p i = some (r, x) ∧ i = a ++ r := by
  unfold recognize at h
  split at h
  · cases h
  · rename_i r' x e
    cases h
    obtain ⟨w, rfl⟩ := hp _ _ _ e
    refine ⟨x, e, ?_⟩
    rw [List.length_append, Nat.add_sub_cancel, List.take_left]

theorem eq_of_append {a b r : Str} (h : a ++ r = b ++ r) : a = b := List.append_cancel_right h

/-! ### White space, comments and documentation -/

theorem notLineEnding_inv {i r b : Str} (h : notLineEnding i = some (r, b)) :
    OneLine b ∧ i = b ++ r ∧ (r = [] ∨ ∃ nl s, Eol nl ∧ r = nl ++ s) := by
  have h2 := takeWhile_inv (f := fun c => !isEol c) (i := i) rfl
  have hb : OneLine (i.takeWhile fun c => !isEol c) := by
    intro c hc
    have := h2.2.1 c hc
    unfold isEol at this
    simpa using this
  unfold notLineEnding at h
  split at h
  · rename_i s e
    cases h
    refine ⟨hb, ?_, .inr ⟨['\r', '\n'], s, .inr rfl, rfl⟩⟩
    rw [← e]; exact h2.1
  · cases h
  · rename_i x h3 h4
    cases h
    refine ⟨hb, h2.1, ?_⟩
    cases hx : i.dropWhile (fun c => !isEol c) with
    | nil => exact .inl rfl
    | cons c s =>
      right
      have := h2.2.2 c s hx
      have hc : c = '\r' ∨ c = '\n' := by
        unfold isEol at this
        simp only [Bool.not_eq_false', Bool.or_eq_true, beq_iff_eq] at this
        exact this
      rcases hc with rfl | rfl
      · exact absurd hx (h4 s)
      · exact ⟨['\n'], s, .inl rfl, rfl⟩

theorem comment_inv {i r : Str} {u : Unit} (h : comment i = some (r, u)) :
    ∃ b, OneLine b ∧ b.head? ≠ some '/' ∧ i = '/' :: '/' :: (b ++ r) ∧ (r = [] ∨ ∃ nl s, Eol nl ∧ r = nl ++ s) := by
  obtain ⟨⟨a, c, b⟩, h, -⟩ := map_inv h
  obtain ⟨j, h1, h2⟩ := pair_inv h
  obtain ⟨k, h3, h4⟩ := pair_inv h2
  dsimp only at h1 h2 h3 h4
  have := tag_inv h1
  subst this
  have hk : k = j ∧ ¬ c!"/" <+: j := by
    unfold pnot at h3
    split at h3
    · rename_i e; cases h3; exact ⟨rfl, tag_none_inv e⟩
    · cases h3
  obtain ⟨rfl, hn⟩ := hk
  obtain ⟨hb, e, hr⟩ := notLineEnding_inv h4
  subst e
  refine ⟨b, hb, ?_, rfl, hr⟩
  intro hh
  cases b with
  | nil => cases hh
  | cons d b =>
    cases hh
    exact hn ⟨b ++ r, rfl⟩

theorem trivia_spaces {a : Str} (h : ∀ c ∈ a, isSpace c = true) : Trivia a := by
  induction a with
  | nil => exact .nil
  | cons c a ih =>
    exact .space ((isSpace_iff c).mp (h c List.mem_cons_self)) (ih fun d hd => h d (List.mem_cons_of_mem _ hd))

theorem trivia_eol {nl : Str} (h : Eol nl) : Trivia nl := by
  rcases h with rfl | rfl
  · exact .space (by simp) .nil
  · exact .space (by simp) (.space (by simp) .nil)

/-- What `comment_or_space0` consumes: white space and comments, at the end of the input also a comment without end of
line. -/
theorem cos0_inv {i r : Str} {u : Unit} (h : cos0 i = some (r, u)) :
    ∃ w e, Trivia w ∧ LastComment e ∧ i = w ++ (e ++ r) ∧ (r ≠ [] → e = []) := by
  induction hl : i.length using Nat.strongRecOn generalizing i with
  | _ n ih =>
    subst hl
    rw [cos0_eq] at h
    cases hc : commentOrSpace i with
    | none =>
      rw [hc] at h
      cases h
      exact ⟨[], [], .nil, .none, rfl, fun _ => rfl⟩
    | some x =>
      obtain ⟨j, v⟩ := x
      rw [hc] at h
      dsimp only at h
      rcases alt_inv hc with hc | ⟨-, hc⟩
      · obtain ⟨b, hb, hh, rfl, hr⟩ := comment_inv hc
        rcases hr with rfl | ⟨nl, s, hn, rfl⟩
        · cases h
          exact ⟨[], '/' :: '/' :: b, .nil, .some hb hh, by simp, fun h => absurd rfl h⟩
        · rw [cos0_trivia (trivia_eol hn)] at h
          obtain ⟨w, e, hw, he, rfl, hne⟩ := ih s.length (by simp; omega) h rfl
          exact ⟨'/' :: '/' :: (b ++ (nl ++ w)), e, .comment hb hh hn hw, he, by simp, hne⟩
      · obtain ⟨a, hc, -⟩ := map_inv hc
        obtain ⟨rfl, ha, hne, -⟩ := takeWhile1_inv hc
        obtain ⟨w, e, hw, he, rfl, hne'⟩ := ih j.length (by
          have := List.length_pos_iff.mpr hne
          simp; omega) h rfl
        exact ⟨a ++ w, e, trivia_append (trivia_spaces ha) hw, he, by simp, hne'⟩

theorem cos0_sound {i r : Str} {u : Unit} (h : cos0 i = some (r, u)) (hr : r ≠ []) : ∃ w, Trivia w ∧ i = w ++ r := by
  obtain ⟨w, e, hw, -, rfl, hne⟩ := cos0_inv h
  exact ⟨w, hw, by rw [hne hr]; rfl⟩

theorem cos1_sound {i r : Str} {u : Unit} (h : cos1 i = some (r, u)) (hr : r ≠ []) :
    ∃ w, Trivia w ∧ w ≠ [] ∧ i = w ++ r := by
  have hl := cos1_strict.ne h
  have h0 : cos0 i = some (r, ()) := by
    obtain ⟨as, h, -⟩ := map_inv h
    unfold many1 at h
    rw [cos0_eq]
    cases hc : commentOrSpace i with
    | none => rw [hc] at h; cases h
    | some x =>
      obtain ⟨j, v⟩ := x
      rw [hc] at h
      obtain ⟨as', h1, -⟩ := push_some h
      exact map_eq h1
  obtain ⟨w, hw, rfl⟩ := cos0_sound h0 hr
  refine ⟨w, hw, ?_, rfl⟩
  rintro rfl
  simp at hl

theorem lineEnding_inv {i r a : Str} (h : lineEnding i = some (r, a)) : Eol a ∧ i = a ++ r := by
  unfold lineEnding at h
  split at h
  · cases h; exact ⟨.inl rfl, rfl⟩
  · cases h; exact ⟨.inr rfl, rfl⟩
  · cases h

theorem nonempty_of_suffix {r j : Str} (h : r <:+ j) (hr : r ≠ []) : j ≠ [] := by
  rintro rfl
  exact hr (List.suffix_nil.mp h)

theorem docComment_sound : Sound docComment DocText := by
  have key : ∀ (n : Nat) (i r : Str) (d : Comment),
      manyGo (terminated (terminated rawDocComment lineEnding) cos0) n i = some (r, d) → r ≠ [] →
      ∃ t, DocText d t ∧ i = t ++ r := by
    intro n
    induction n with
    | zero => intro i r d h; cases h
    | succ n ih =>
      intro i r d h hr
      unfold manyGo at h
      cases e : terminated (terminated rawDocComment lineEnding) cos0 i with
      | none => rw [e] at h; cases h; exact ⟨[], .nil, rfl⟩
      | some x =>
        obtain ⟨j, l⟩ := x
        rw [e] at h
        dsimp only at h
        split at h
        · cases h
        · obtain ⟨d', h1, rfl⟩ := push_some h
          obtain ⟨t, ht, rfl⟩ := ih _ _ _ h1 hr
          obtain ⟨k, u, h2, h3⟩ := terminated_inv e
          obtain ⟨m, nl, h4, h5⟩ := terminated_inv h2
          obtain ⟨q, a, h6, h7⟩ := preceded_inv h4
          have := tag_inv h6
          subst this
          obtain ⟨hl, rfl, -⟩ := notLineEnding_inv h7
          obtain ⟨hn, rfl⟩ := lineEnding_inv h5
          obtain ⟨w, hw, rfl⟩ := cos0_sound h3 (by simp [hr])
          exact ⟨_, .cons hl hn hw ht, by simp⟩
  exact fun i r d h hr => key _ i r d h hr

/-! ### Lists -/

/-- Items separated by a character. -/
theorem sepList1_sound {s : P β} {p : P α} {c : Char} {R : α → Str → Prop} (hs : Consumes s) (hp : Consumes p)
    (sep : ∀ i r b, s i = some (r, b) → r ≠ [] → ∃ w₁ w₂, Trivia w₁ ∧ Trivia w₂ ∧ i = w₁ ++ c :: (w₂ ++ r))
    (item : Sound p R) : Sound (sepList1 s p) (SepText c R) := by
  have key : ∀ (n : Nat) (i r : Str) (as : List α), sepGo s p n i = some (r, as) → r ≠ [] →
      (as = [] ∧ i = r) ∨ ∃ w₁ w₂ t, Trivia w₁ ∧ Trivia w₂ ∧ SepText c R as t ∧ i = w₁ ++ c :: (w₂ ++ (t ++ r)) := by
    intro n
    induction n with
    | zero => intro i r as h; cases h
    | succ n ih =>
      intro i r as h hr
      unfold sepGo at h
      cases e1 : s i with
      | none => rw [e1] at h; cases h; exact .inl ⟨rfl, rfl⟩
      | some x =>
        obtain ⟨j, b⟩ := x
        rw [e1] at h
        dsimp only at h
        split at h
        · cases h
        · cases e2 : p j with
          | none => rw [e2] at h; cases h; exact .inl ⟨rfl, rfl⟩
          | some x =>
            obtain ⟨k, a⟩ := x
            rw [e2] at h
            dsimp only at h
            split at h
            · cases h
            · obtain ⟨as', h1, rfl⟩ := push_some h
              have hk : k ≠ [] := nonempty_of_suffix (sepGo_consumes hs hp n _ _ _ h1) hr
              obtain ⟨t, ht, rfl⟩ := item _ _ _ e2 hk
              obtain ⟨w₁, w₂, hw₁, hw₂, rfl⟩ := sep _ _ _ e1 (by simp [hk])
              right
              rcases ih _ _ _ h1 hr with ⟨rfl, rfl⟩ | ⟨v₁, v₂, ts, hv₁, hv₂, hts, rfl⟩
              · exact ⟨w₁, w₂, t, hw₁, hw₂, .one ht, rfl⟩
              · exact ⟨w₁, w₂, _, hw₁, hw₂, .cons ht hv₁ hv₂ hts, by simp⟩
  intro i r as h hr
  obtain ⟨j, a, as', h1, -, h2, rfl⟩ := sepList1_some h
  have hj : j ≠ [] := nonempty_of_suffix (sepGo_consumes hs hp _ _ _ _ h2) hr
  obtain ⟨t, ht, rfl⟩ := item _ _ _ h1 hj
  rcases key _ _ _ _ h2 hr with ⟨rfl, rfl⟩ | ⟨w₁, w₂, ts, hw₁, hw₂, hts, rfl⟩
  · exact ⟨t, .one ht, rfl⟩
  · exact ⟨_, .cons ht hw₁ hw₂ hts, by simp⟩

/-- A possibly empty list. -/
theorem sepList0_sound {s : P β} {p : P α} {c : Char} {R : α → Str → Prop} (hs : Consumes s) (hp : Consumes p)
    (sep : ∀ i r b, s i = some (r, b) → r ≠ [] → ∃ w₁ w₂, Trivia w₁ ∧ Trivia w₂ ∧ i = w₁ ++ c :: (w₂ ++ r))
    (item : Sound p R) {i r : Str} {as : List α} (h : sepList0 s p i = some (r, as)) (hr : r ≠ []) :
    (as = [] ∧ i = r) ∨ ∃ t, SepText c R as t ∧ i = t ++ r := by
  unfold sepList0 at h
  split at h
  · cases h; exact .inl ⟨rfl, rfl⟩
  · exact .inr (sepList1_sound hs hp sep item _ _ _ h hr)

theorem sepChar_inv (c : Char) (i r : Str) (b : Char) (h : delimited cos0 (char c) cos0 i = some (r, b))
    (hr : r ≠ []) : ∃ w₁ w₂, Trivia w₁ ∧ Trivia w₂ ∧ i = w₁ ++ c :: (w₂ ++ r) := by
  obtain ⟨j, k, u, v, h1, h2, h3⟩ := delimited_inv h
  have := char_inv h2
  subst this
  obtain ⟨w₁, hw₁, rfl⟩ := cos0_sound h1 (by simp)
  obtain ⟨w₂, hw₂, rfl⟩ := cos0_sound h3 hr
  exact ⟨w₁, w₂, hw₁, hw₂, rfl⟩

/-- Items with white space around them. -/
theorem many0_sound {p : P α} {R : α → Str → Prop} (hnil : p [] = none) (item : SoundEnd p R) {i r : Str}
    {as : List α} (h : many0 (delimited cos0 p cos0) i = some (r, as)) :
    (as = [] ∧ i = r) ∨ (as ≠ [] ∧ ∃ w ts e, Trivia w ∧ ManyText R as ts ∧ LastComment e ∧
      i = w ++ (ts ++ (e ++ r)) ∧ (r ≠ [] → e = [])) := by
  have key : ∀ (n : Nat) (i r : Str) (as : List α), manyGo (delimited cos0 p cos0) n i = some (r, as) →
      (as = [] ∧ i = r) ∨ (as ≠ [] ∧ ∃ w ts e, Trivia w ∧ ManyText R as ts ∧ LastComment e ∧
        i = w ++ (ts ++ (e ++ r)) ∧ (r ≠ [] → e = [])) := by
    intro n
    induction n with
    | zero => intro i r as h; cases h
    | succ n ih =>
      intro i r as h
      unfold manyGo at h
      cases e : delimited cos0 p cos0 i with
      | none => rw [e] at h; cases h; exact .inl ⟨rfl, rfl⟩
      | some x =>
        obtain ⟨j, a⟩ := x
        rw [e] at h
        dsimp only at h
        split at h
        · cases h
        · obtain ⟨as', h1, rfl⟩ := push_some h
          obtain ⟨k, m, u, v, h2, h3, h4⟩ := delimited_inv e
          have hk : k ≠ [] := by rintro rfl; rw [hnil] at h3; cases h3
          obtain ⟨w, hw, rfl⟩ := cos0_sound h2 hk
          obtain ⟨t, ht, rfl⟩ := item _ _ _ h3
          obtain ⟨w', e', hw', he', rfl, hne'⟩ := cos0_inv h4
          refine .inr ⟨by simp, ?_⟩
          rcases ih _ _ _ h1 with ⟨rfl, rfl⟩ | ⟨has, w₂, ts₂, e₂, hw₂, hts₂, he₂, rfl, hne₂⟩
          · exact ⟨w, _, e', hw, .cons ht hw' .nil, he', by simp, hne'⟩
          · have hj : w₂ ++ (ts₂ ++ (e₂ ++ r)) ≠ [] := by
              intro hj
              rw [hj] at h1
              cases n with
              | zero => cases h1
              | succ n =>
                unfold manyGo at h1
                rw [spaced_nil hnil] at h1
                cases h1
                exact has rfl
            refine ⟨w, _, e₂, hw, .cons ht (trivia_append hw' hw₂) hts₂, he₂, ?_, hne₂⟩
            rw [hne' hj]
            simp
  exact key _ _ _ _ h

/-! ### Identifiers -/

variable [Env]

theorem ident_inv {i r : Str} {a : Ident} (h : ident i = some (r, a)) :
    IsIdent a ∧ i = a ++ r ∧ Stops identRest r := by
  obtain ⟨x, h1, e⟩ := recognize_inv (preceded_consumes (satisfy_strict).consumes takeWhile_consumes) h
  obtain ⟨j, c, h2, h3⟩ := preceded_inv h1
  obtain ⟨rfl, hc⟩ := satisfy_inv h2
  obtain ⟨rfl, hx, hst⟩ := takeWhile_inv h3
  have ha : a = c :: x := by
    apply eq_of_append (r := r)
    rw [← e]; rfl
  subst ha
  refine ⟨⟨?_, fun d hd => ?_⟩, rfl, hst⟩
  · unfold identStart at hc
    simpa using hc
  · have := hx d hd
    unfold identRest at this
    simpa [or_assoc] using this

theorem ident_sound : SoundEnd ident IdentText := fun i r a h => by
  obtain ⟨h1, h2, -⟩ := ident_inv h
  exact ⟨a, ⟨h1, rfl⟩, h2⟩

theorem qualifiedIdent_sound : Sound qualifiedIdent QIdentText := by
  refine sepList1_sound (delimited_consumes cos0_consumes tag_consumes cos0_consumes) ident_strict.consumes ?_
    ident_sound.sound
  intro i r b h hr
  obtain ⟨j, k, u, v, h1, h2, h3⟩ := delimited_inv h
  have := tag_inv h2
  subst this
  obtain ⟨w₁, hw₁, rfl⟩ := cos0_sound h1 (by simp)
  obtain ⟨w₂, hw₂, rfl⟩ := cos0_sound h3 hr
  exact ⟨w₁, w₂, hw₁, hw₂, rfl⟩

/-! ### Strings -/

omit [Env] in
theorem escapedGo_inv (i : Str) {r : Str}
    (h : escapedGo (fun c => !(c!"\\\"").contains c) '\\' (fun c => c == '\\' || c == '"') i = some r) :
    ∃ s, RawText s ∧ i = s ++ r := by
  have hn : ∀ c : Char, (!(c!"\\\"").contains c) = true → c ≠ '\\' ∧ c ≠ '"' := by
    intro c hc
    simpa using hc
  fun_induction escapedGo (fun c => !(c!"\\\"").contains c) '\\' (fun c => c == '\\' || c == '"') i with
  | case1 => cases h; exact ⟨[], .nil, rfl⟩
  | case2 c hc => cases h; exact ⟨[c], .plain (hn c hc).1 (hn c hc).2 .nil, rfl⟩
  | case3 => cases h
  | case4 c => cases h; exact ⟨[], .nil, rfl⟩
  | case5 c d cs hc ih =>
    obtain ⟨s, hs, e⟩ := ih h
    exact ⟨c :: s, .plain (hn c hc).1 (hn c hc).2 hs, by rw [e]; rfl⟩
  | case6 d cs hd _ ih =>
    obtain ⟨s, hs, rfl⟩ := ih h
    exact ⟨'\\' :: d :: s, .escape (by simpa using hd) hs, rfl⟩
  | case7 => cases h
  | case8 c d cs => cases h; exact ⟨[], .nil, rfl⟩

omit [Env] in
theorem stringConstant_sound : SoundEnd stringConstant StringText := by
  intro i r a h
  obtain ⟨o, h, e⟩ := map_inv h
  obtain ⟨j, k, u, v, h1, h2, h3⟩ := delimited_inv h
  have := char_inv h1
  subst this
  have := char_inv h3
  subst this
  rcases opt_inv h2 with ⟨s, h4, rfl⟩ | ⟨-, rfl, rfl⟩
  · unfold escaped at h4
    split at h4
    · cases h4
    · rename_i x hx
      obtain ⟨s', hs, rfl⟩ := escapedGo_inv _ hx
      cases h4
      rw [List.length_append, Nat.add_sub_cancel, List.take_left] at e
      cases e
      exact ⟨_, ⟨hs, rfl⟩, by simp⟩
  · cases e
    exact ⟨_, ⟨.nil, rfl⟩, rfl⟩

/-! ### Numbers -/

omit [Env] in
theorem sign_inv {i r : Str} {o : Option Char} (h : opt plusOrMinus i = some (r, o)) :
    ∃ neg sg, Sign neg sg ∧ i = sg ++ r ∧ (o = some '-' ↔ neg = true) := by
  rcases opt_inv h with ⟨c, h1, rfl⟩ | ⟨-, rfl, rfl⟩
  · obtain ⟨rfl, hc⟩ := oneOf_inv h1
    simp only [List.mem_cons, List.not_mem_nil, or_false] at hc
    rcases hc with rfl | rfl
    · exact ⟨true, _, .minus, rfl, by simp⟩
    · exact ⟨false, _, .plus, rfl, by simp⟩
  · exact ⟨false, _, .none, rfl, by simp⟩

omit [Env] in
theorem digit1_inv {i r a : Str} (h : digit1 i = some (r, a)) : i = a ++ r ∧ Digits a ∧ a ≠ [] ∧ Stops isDigit r :=
  takeWhile1_inv h

omit [Env] in
theorem decInteger_sound : SoundEnd decIntegerConstant IntText := by
  intro i r n h
  obtain ⟨a, h1, h2⟩ := mapRes_inv h
  obtain ⟨ds, h3, e⟩ := recognize_inv (preceded_consumes sign_consumes takeWhile1_strict.consumes) h1
  obtain ⟨j, o, h4, h5⟩ := preceded_inv h3
  obtain ⟨neg, sg, hs, rfl, -⟩ := sign_inv h4
  obtain ⟨rfl, hd, hne, -⟩ := digit1_inv h5
  have ha : a = sg ++ ds := by
    apply eq_of_append (r := r)
    rw [← e]; simp
  subst ha
  by_cases hr : -(2 ^ 127) ≤ signed neg (digitsVal 10 ds) ∧ signed neg (digitsVal 10 ds) < 2 ^ 127
  · rw [i128FromStr_eq hs hd hne hr.1 hr.2] at h2
    cases h2
    exact ⟨_, .dec hs hd hne hr.1 hr.2, by simp⟩
  · rw [i128FromStr_none hs hd hne hr] at h2
    cases h2

omit [Env] in
theorem hexInteger_sound : SoundEnd hexIntegerConstant IntText := by
  intro i r n h
  obtain ⟨⟨o, ds⟩, h1, h2⟩ := mapRes_inv h
  obtain ⟨j, h3, h4⟩ := pair_inv h1
  obtain ⟨k, a, h5, h6⟩ := preceded_inv h4
  obtain ⟨l, x, h7, h8⟩ := preceded_inv h6
  dsimp only at h3 h8
  obtain ⟨neg, sg, hs, rfl, ho⟩ := sign_inv h3
  have := char_inv h5
  subst this
  obtain ⟨rfl, hx⟩ := oneOf_inv h7
  obtain ⟨rfl, hd, hne, -⟩ := takeWhile1_inv h8
  have hx : x = 'x' ∨ x = 'X' := by simpa using hx
  dsimp only at h2
  split at h2
  · rename_i hr
    have hr : digitsVal 16 ds < 2 ^ 127 := by
      unfold inI128 at hr
      simp only [Bool.and_eq_true, decide_eq_true_eq] at hr
      omega
    split at h2
    · rename_i hm
      have := ho.mp hm
      subst this
      split at h2
      · cases h2
        exact ⟨_, .hex hs hx hd hne hr, by simp⟩
      · cases h2
    · rename_i hm
      have : neg = false := by
        cases neg with
        | false => rfl
        | true => exact absurd (ho.mpr rfl) hm
      subst this
      cases h2
      exact ⟨_, .hex hs hx hd hne hr, by simp⟩
  · cases h2

omit [Env] in
theorem integerConstant_sound : SoundEnd integerConstant IntText := by
  intro i r n h
  rcases alt_inv h with h | ⟨-, h⟩
  · exact hexInteger_sound i r n h
  · exact decInteger_sound i r n h

omit [Env] in
theorem exponent_inv {i r a : Str} (h : decFloatExponent i = some (r, a)) :
    ∃ e, ExpText e a ∧ i = a ++ r := by
  obtain ⟨⟨c, o, ds⟩, h1, e⟩ := recognize_inv
    (pair_consumes satisfy_strict.consumes (pair_consumes sign_consumes takeWhile1_strict.consumes)) h
  obtain ⟨j, h2, h3⟩ := pair_inv h1
  obtain ⟨k, h4, h5⟩ := pair_inv h3
  dsimp only at h2 h4 h5
  obtain ⟨rfl, hc⟩ := oneOf_inv h2
  obtain ⟨neg, sg, hs, rfl, -⟩ := sign_inv h4
  obtain ⟨rfl, hd, hne, -⟩ := digit1_inv h5
  have ha : a = c :: (sg ++ ds) := by
    apply eq_of_append (r := r)
    rw [← e]; simp
  subst ha
  exact ⟨_, .mk hs (by simpa using hc) hd hne, by simp⟩

omit [Env] in
/-- The mantissa and exponent of a decimal fraction. -/
theorem decFloat_body {i r x : Str}
    (h : alt (terminated (alt (terminated digit1 (terminated (char '.') digit0)) (preceded (char '.') digit1))
      (opt decFloatExponent)) (terminated digit1 decFloatExponent) i = some (r, x)) :
    (∃ ip fp, Digits ip ∧ Digits fp ∧ (ip ≠ [] ∨ fp ≠ []) ∧ i = ip ++ '.' :: (fp ++ r)) ∨
    (∃ ip fp e et, Digits ip ∧ Digits fp ∧ (ip ≠ [] ∨ fp ≠ []) ∧ ExpText e et ∧ i = ip ++ '.' :: (fp ++ (et ++ r))) ∨
    (∃ ip e et, Digits ip ∧ ip ≠ [] ∧ ExpText e et ∧ i = ip ++ (et ++ r)) := by
  rcases alt_inv h with h | ⟨-, h⟩
  · obtain ⟨j, o, h1, h2⟩ := terminated_inv h
    have hm : ∃ ip fp, Digits ip ∧ Digits fp ∧ (ip ≠ [] ∨ fp ≠ []) ∧ i = ip ++ '.' :: (fp ++ j) := by
      rcases alt_inv h1 with h1 | ⟨-, h1⟩
      · obtain ⟨k, d, h3, h4⟩ := terminated_inv h1
        obtain ⟨l, fp, h5, h6⟩ := terminated_inv h4
        obtain ⟨rfl, hd, hne, -⟩ := digit1_inv h3
        have := char_inv h5
        subst this
        obtain ⟨rfl, hf, -⟩ := takeWhile_inv h6
        exact ⟨_, _, hd, hf, .inl hne, rfl⟩
      · obtain ⟨k, d, h3, h4⟩ := preceded_inv h1
        have := char_inv h3
        subst this
        obtain ⟨rfl, hd, hne, -⟩ := digit1_inv h4
        exact ⟨[], _, (fun c hc => by cases hc), hd, .inr hne, rfl⟩
    obtain ⟨ip, fp, hi, hf, hne, rfl⟩ := hm
    rcases opt_inv h2 with ⟨et, h3, rfl⟩ | ⟨-, rfl, rfl⟩
    · obtain ⟨e, he, rfl⟩ := exponent_inv h3
      exact .inr (.inl ⟨ip, fp, e, et, hi, hf, hne, he, rfl⟩)
    · exact .inl ⟨ip, fp, hi, hf, hne, rfl⟩
  · obtain ⟨j, et, h1, h2⟩ := terminated_inv h
    obtain ⟨rfl, hd, hne, -⟩ := digit1_inv h1
    obtain ⟨e, he, rfl⟩ := exponent_inv h2
    exact .inr (.inr ⟨_, e, et, hd, hne, he, rfl⟩)

omit [Env] in
theorem floatText_value {b : Fin (2 ^ 64)} {t : Str} (h : FloatText b t) : f64FromStr t = some b := by
  cases h with
  | @point neg sg ip fp hs hi hf hne =>
    have := f64FromStr_eq (s := '.' :: fp) (fp := fp) (e := []) hs (noSign_point hi) hi
      (stops_cons (by decide)) (by
        have := digits_span (r := []) hf stops_nil
        rw [List.append_nil] at this
        simp only [fracOf, this.1, this.2])
    rw [this]
    simp [expOf]
  | @pointExp neg sg ip fp et e hs hi hf hne he =>
    have := f64FromStr_eq (s := '.' :: (fp ++ et)) (fp := fp) (e := et) hs (noSign_point hi) hi
      (stops_cons (by decide)) (by
        have := digits_span (r := et) hf (by have := stops_exp (r := []) he; simpa using this)
        simp only [fracOf, this.1, this.2])
    rw [this, expOf_eq he]
  | @exp neg sg ip et e hs hi hne he =>
    have hst : Stops isDigit et := by have := stops_exp (r := []) he; simpa using this
    have := f64FromStr_eq (s := et) (fp := []) (e := et) hs (noSign_digits hi hne _) hi hst (by
      obtain ⟨c, t, ht, hc⟩ := expText_head (r := []) he
      rw [List.append_nil] at ht
      subst ht
      rcases hc with rfl | rfl <;> rfl)
    rw [this, expOf_eq he]
    simp

omit [Env] in
theorem decFloat_sound : SoundEnd decFloatConstant FloatText := by
  intro i r b h
  obtain ⟨a, h1, h2⟩ := mapRes_inv h
  obtain ⟨x, h3, e⟩ := recognize_inv (preceded_consumes sign_consumes (alt_consumes
    (terminated_consumes (alt_consumes
      (terminated_consumes digit1_strict.consumes (terminated_consumes (char_strict _).consumes digit0_consumes))
      (preceded_consumes (char_strict _).consumes digit1_strict.consumes))
      (opt_consumes decFloatExponent_consumes))
    (terminated_consumes digit1_strict.consumes decFloatExponent_consumes))) h1
  obtain ⟨j, o, h4, h5⟩ := preceded_inv h3
  obtain ⟨neg, sg, hs, rfl, -⟩ := sign_inv h4
  have key : ∀ b' t, FloatText b' t → sg ++ j = t ++ r → ∃ t, FloatText b t ∧ sg ++ j = t ++ r := by
    intro b' t ht e'
    have : a = t := by
      apply eq_of_append (r := r)
      rw [← e, e']
    subst this
    rw [floatText_value ht] at h2
    cases h2
    exact ⟨a, ht, e'⟩
  rcases decFloat_body h5 with ⟨ip, fp, hi, hf, hne, rfl⟩ | ⟨ip, fp, e, et, hi, hf, hne, he, rfl⟩ |
    ⟨ip, e, et, hi, hne, he, rfl⟩
  · exact key _ _ (.point hs hi hf hne) (by simp)
  · exact key _ _ (.pointExp hs hi hf hne he) (by simp)
  · exact key _ _ (.exp hs hi hne he) (by simp)

/-- `hexf_parse` wants the prefix `0x`, as its documentation says. -/
def HexfPrefix : Prop :=
  ∀ s b, Env.hexf64 s = some b → ∃ neg sg t, Sign neg sg ∧ (s = sg ++ '0' :: 'x' :: t ∨ s = sg ++ '0' :: 'X' :: t)

omit [Env] in
/-- A text of hexadecimal digits, a period and an exponent does not begin with `0x`, and has no sign. -/
theorem hexFloat_body {i r x : Str}
    (h : alt (terminated (alt (terminated (terminated hexDigit1 (char '.')) hexDigit0) (preceded (char '.') hexDigit1))
      (opt hexFloatExponent)) (terminated hexDigit1 hexFloatExponent) i = some (r, x)) :
    (∃ ds c s, HexDigits ds ∧ ds ≠ [] ∧ (c = '.' ∨ c = 'p' ∨ c = 'P') ∧ i = ds ++ c :: s) ∨ ∃ s, i = '.' :: s := by
  rcases alt_inv h with h | ⟨-, h⟩
  · obtain ⟨j, o, h1, -⟩ := terminated_inv h
    rcases alt_inv h1 with h1 | ⟨-, h1⟩
    · obtain ⟨k, d, h3, -⟩ := terminated_inv h1
      obtain ⟨l, fp, h5, h6⟩ := terminated_inv h3
      obtain ⟨rfl, hd, hne, -⟩ := takeWhile1_inv h5
      have := char_inv h6
      subst this
      exact .inl ⟨_, _, _, hd, hne, .inl rfl, rfl⟩
    · obtain ⟨k, d, h3, -⟩ := preceded_inv h1
      have := char_inv h3
      subst this
      exact .inr ⟨_, rfl⟩
  · obtain ⟨j, et, h1, h2⟩ := terminated_inv h
    obtain ⟨rfl, hd, hne, -⟩ := takeWhile1_inv h1
    obtain ⟨z, h3, -⟩ := recognize_inv
      (terminated_consumes satisfy_strict.consumes (terminated_consumes sign_consumes takeWhile1_strict.consumes)) h2
    obtain ⟨k, c, h4, -⟩ := terminated_inv h3
    obtain ⟨rfl, hc⟩ := oneOf_inv h4
    refine .inl ⟨_, _, _, hd, hne, .inr ?_, rfl⟩
    simpa using hc

/-- Hexadecimal floats are never read: `hex_float_constant` strips the prefix that `hexf_parse` wants. -/
theorem hexFloat_never (hx : HexfPrefix) (i : Str) : hexFloatConstant i = none := by
  cases h : hexFloatConstant i with
  | none => rfl
  | some x =>
    exfalso
    obtain ⟨r, b⟩ := x
    obtain ⟨⟨o, b'⟩, h1, -⟩ := map_inv h
    obtain ⟨j, -, h2⟩ := pair_inv h1
    obtain ⟨a, h3, h4⟩ := mapRes_inv h2
    obtain ⟨z, h5, e⟩ := recognize_inv (alt_consumes
      (terminated_consumes (alt_consumes
        (terminated_consumes (terminated_consumes hexDigit1_strict.consumes (char_strict _).consumes)
          hexDigit0_consumes)
        (preceded_consumes (char_strict _).consumes hexDigit1_strict.consumes))
        (opt_consumes hexFloatExponent_consumes))
      (terminated_consumes hexDigit1_strict.consumes hexFloatExponent_consumes)) h3
    obtain ⟨neg, sg, t, hs, ha⟩ := hx _ _ h4
    have hj : ∃ c s, (c = 'x' ∨ c = 'X') ∧ j = sg ++ '0' :: c :: s := by
      rcases ha with rfl | rfl
      · exact ⟨_, t ++ r, .inl rfl, by rw [e]; simp⟩
      · exact ⟨_, t ++ r, .inr rfl, by rw [e]; simp⟩
    obtain ⟨c, s, hc, rfl⟩ := hj
    have hc' : isHexDigit c = false ∧ c ≠ '.' ∧ c ≠ 'p' ∧ c ≠ 'P' := by
      rcases hc with rfl | rfl <;> decide
    rcases hexFloat_body h5 with ⟨ds, d, s', hd, hne, hd', e'⟩ | ⟨s', e'⟩
    · cases hs with
      | none =>
        match ds, hne with
        | [x], _ =>
          cases e'
          rcases hd' with h | h | h
          · exact hc'.2.1 h
          · exact hc'.2.2.1 h
          · exact hc'.2.2.2 h
        | x :: y :: ds, _ =>
          cases e'
          have := hd c (by simp)
          rw [hc'.1] at this
          cases this
      | plus =>
        match ds, hne with
        | x :: ds, _ =>
          have h6 : isHexDigit x = true := hd _ List.mem_cons_self
          rw [← (List.cons.inj e').1] at h6
          revert h6; decide
      | minus =>
        match ds, hne with
        | x :: ds, _ =>
          have h6 : isHexDigit x = true := hd _ List.mem_cons_self
          rw [← (List.cons.inj e').1] at h6
          revert h6; decide
    · cases hs <;> cases e'

theorem floatConstant_sound (hx : HexfPrefix) : Sound floatConstant FloatText := by
  intro i r b h hr
  rcases alt_inv h with h | ⟨-, h⟩
  · exact absurd (special_rest h) hr
  · rcases alt_inv h with h | ⟨-, h⟩
    · rw [hexFloat_never hx] at h; cases h
    · exact decFloat_sound i r b h

theorem boolWord_inv {b b' : Bool} {w i r : Str} (h : boolWord b w i = some (r, b')) : b' = b ∧ i = w ++ r := by
  unfold boolWord value at h
  obtain ⟨a, g, rfl⟩ := map_inv h
  refine ⟨rfl, ?_⟩
  split at g
  · cases g
  · exact tag_inv g

theorem scalar_sound (hx : HexfPrefix) : Sound scalar ScalarText := by
  intro i r s h hr
  rcases alt_inv h with h | ⟨-, h⟩
  · obtain ⟨b, g, rfl⟩ := map_inv h
    obtain ⟨t, ht, e⟩ := floatConstant_sound hx _ _ _ g hr
    exact ⟨t, .float ht, e⟩
  · rcases alt_inv h with h | ⟨-, h⟩
    · obtain ⟨b, g, rfl⟩ := map_inv h
      obtain ⟨t, ht, e⟩ := integerConstant_sound _ _ _ g
      exact ⟨t, .integer ht, e⟩
    · obtain ⟨b, g, rfl⟩ := map_inv h
      rcases alt_inv g with h | ⟨-, h⟩
      · obtain ⟨rfl, e⟩ := boolWord_inv h
        exact ⟨_, .true, e⟩
      · obtain ⟨rfl, e⟩ := boolWord_inv h
        exact ⟨_, .false, e⟩

theorem single_sound (hx : HexfPrefix) : Sound single SingleText := by
  intro i r s h hr
  rcases alt_inv h with h | ⟨-, h⟩
  · obtain ⟨b, g, rfl⟩ := map_inv h
    obtain ⟨t, ht, e⟩ := scalar_sound hx _ _ _ g hr
    exact ⟨t, .scalar ht, e⟩
  · obtain ⟨b, g, rfl⟩ := map_inv h
    obtain ⟨t, ht, e⟩ := stringConstant_sound _ _ _ g
    exact ⟨t, .string ht, e⟩

theorem boolWord_read {b : Bool} {w r : Str} (hw : w ≠ []) (hr : ∀ c, r.head? = some c → Env.word c = false) :
    boolWord b w (w ++ r) = some (r, b) := by
  refine value_eq (a := w) ?_
  have : hasWord w (w ++ r) = true := hasWordFrom_of hw hr [] false (fun _ => rfl) (by intro c hc; cases hc)
  unfold reMatch
  rw [this]
  exact tag_eq w r

/-- A default, when what follows is not part of a word. -/
theorem default_sound (hx : HexfPrefix) {i r : Str} {v : DefaultValue} (h : defaultValue i = some (r, v))
    (hr : r ≠ []) (hw : ∀ c, r.head? = some c → Env.word c = false) : ∃ t, DefaultText v t ∧ i = t ++ r := by
  rcases alt_inv h with h | ⟨hn, h⟩
  · obtain ⟨b, g, rfl⟩ := map_inv h
    obtain ⟨t, ht, e⟩ := scalar_sound hx _ _ _ g hr
    exact ⟨t, .scalar ht, e⟩
  · obtain ⟨a, g, rfl⟩ := map_inv h
    obtain ⟨ha, rfl, -⟩ := ident_inv g
    have key : ∀ b w, w ≠ [] → a = w → ¬ booleanConstant (a ++ r) = some (r, b) := by
      intro b w _ _ hb
      have : scalar (a ++ r) = none := by
        cases hs : scalar (a ++ r) with
        | none => rfl
        | some x => obtain ⟨r', x⟩ := x; rw [map_eq hs] at hn; cases hn
      have h2 : ∀ {α : Type} {p q : P α} {i : Str}, alt p q i = none → p i = none ∧ q i = none := by
        intro α p q i e
        unfold alt at e
        cases e' : p i with
        | none => rw [e'] at e; exact ⟨rfl, e⟩
        | some _ => rw [e'] at e; cases e
      have h3 := (h2 (h2 this).2).2
      rw [map_eq hb] at h3
      cases h3
    refine ⟨a, .ident ha ?_ ?_, rfl⟩
    · intro e
      refine key true _ (by simp) e ?_
      rw [e]
      exact alt_left (boolWord_read (by simp) hw)
    · intro e
      refine key false _ (by simp) e ?_
      rw [e]
      unfold booleanConstant
      rw [alt_right]
      · exact boolWord_read (by simp) hw
      · refine value_none ?_
        split
        · rfl
        · exact tag_none (by intro h; exact absurd (List.cons_prefix_cons.mp h).1 (by decide))

/-! ### Types -/

omit [Env] in
theorem builtinAlt_inv : ∀ (l : List (Builtin × Str)) {i r : Str} {ty : Ty}, builtinAlt l i = some (r, ty) →
    ∃ x ∈ l, ty = .builtin x.1 ∧ i = x.2 ++ r
  | [], _, _, _, h => by cases h
  | (b, n) :: l, i, r, ty, h => by
    rcases alt_inv h with h | ⟨-, h⟩
    · obtain ⟨a, g, rfl⟩ := map_inv h
      exact ⟨_, List.mem_cons_self, rfl, tag_inv g⟩
    · obtain ⟨x, hx, h1, h2⟩ := builtinAlt_inv l h
      exact ⟨x, List.mem_cons_of_mem _ hx, h1, h2⟩

omit [Env] in
theorem map_none_inv {p : P α} {f : α → β} {i : Str} (h : map p f i = none) : p i = none := by
  unfold map at h
  cases e : p i with
  | none => rfl
  | some x => rw [e] at h; cases h

omit [Env] in
theorem builtinAlt_none_inv : ∀ (l : List (Builtin × Str)) {i : Str}, builtinAlt l i = none →
    ∀ x ∈ l, ¬ x.2 <+: i
  | [], _, _ => by intro x hx; cases hx
  | (b, n) :: l, i, h => by
    intro x hx
    unfold builtinAlt alt at h
    cases e : value (Ty.builtin b) (tag n) i with
    | some _ => rw [e] at h; cases h
    | none =>
      rw [e] at h
      rcases List.mem_cons.mp hx with rfl | hx
      · exact tag_none_inv (map_none_inv e)
      · exact builtinAlt_none_inv l h x hx

theorem qident_prefix {i : Ident} {q : QIdent} {t : Str} (h : QIdentText (i :: q) t) : i <+: t := by
  cases h with
  | one h => rw [h.2]; exact List.prefix_rfl
  | cons h => rw [h.2]; exact List.prefix_append _ _

theorem typeGo_sound : ∀ n, Sound (typeGo n) TyText
  | 0 => fun _ _ _ h => by cases h
  | n + 1 => by
    intro i r ty h hr
    unfold typeGo at h
    rcases alt_inv h with h | ⟨hb, h⟩
    · obtain ⟨x, hx, rfl, rfl⟩ := builtinAlt_inv _ h
      rw [builtins_names x hx]
      exact ⟨_, .builtin x.1, rfl⟩
    · rcases alt_inv h with h | ⟨hs, h⟩
      · obtain ⟨a, g, rfl⟩ := map_inv h
        exact ⟨_, .string, tag_inv g⟩
      · rcases alt_inv h with h | ⟨-, h⟩
        · obtain ⟨a, g, rfl⟩ := map_inv h
          obtain ⟨j, k, u, v, h1, h2, h3⟩ := delimited_inv g
          have := char_inv h1
          subst this
          have := char_inv h3
          subst this
          obtain ⟨t, ht, rfl⟩ := typeGo_sound n _ _ _ h2 (by simp)
          exact ⟨_, .array ht, by simp⟩
        · obtain ⟨q, g, rfl⟩ := map_inv h
          obtain ⟨t, ht, rfl⟩ := qualifiedIdent_sound _ _ _ g hr
          cases q with
          | nil => cases ht
          | cons i q =>
            have hi := (qident_prefix ht).trans (List.prefix_append t r)
            exact ⟨t, .ident ⟨fun b hb' => builtinAlt_none_inv _ hb _ (builtins_all b) (hb'.trans hi),
              fun hs' => tag_none_inv (map_none_inv hs) (hs'.trans hi)⟩ ht, rfl⟩

theorem type_sound : Sound type_ TyText := fun i r ty h hr => typeGo_sound _ i r ty h hr

end Butte.Parse
