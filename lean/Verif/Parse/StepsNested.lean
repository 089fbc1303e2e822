import Verif.Parse.StepsGrammar
import Verif.Parse.Sound
/-
How many steps the rules with recursion take: types and the values of objects. A value that is not read to the end makes the
values around it fail as well, so no text is gone over twice at every level.
-/
namespace Butte.Parse.Timed

open Ast

variable {α β γ : Type}

/-! ### Combinators at one input -/

theorem map_steps {c : CP α} {p : P α} (h : Gives c p) (hc : Consumes p) (f : α → β) (i : Str) :
    (map c f i).steps ≤ (c i).steps + i.length + 1 := by
  simp only [map, bind_steps, tick_steps]
  have h3 := h i
  cases e : (c i).val with
  | none => simp only [pure_steps]; omega
  | some x =>
    simp only [bind_steps, tick_steps, pure_steps]
    omega

theorem alt_steps (c d : CP α) (i : Str) : (alt c d i).steps ≤ (c i).steps + (d i).steps + 1 := by
  simp only [alt, bind_steps, tick_steps]
  cases (c i).val <;> simp only [pure_steps] <;> omega

theorem alt_steps_some {c : CP α} {i : Str} {x : Str × α} (h : (c i).val = some x) (d : CP α) :
    (alt c d i).steps = (c i).steps + 1 := by
  simp only [alt, bind_steps, tick_steps, h, pure_steps]
  omega

theorem pair_steps_none {c : CP α} {i : Str} (h : (c i).val = none) (d : CP β) : (pair c d i).steps = (c i).steps + 1 := by
  simp only [pair, bind_steps, tick_steps, h, pure_steps]
  omega

theorem pair_steps_some {c : CP α} {i r : Str} {a : α} (h : (c i).val = some (r, a)) (d : CP β) :
    (pair c d i).steps = (c i).steps + (d r).steps + 1 := by
  simp only [pair, bind_steps, tick_steps, h]
  cases (d r).val <;> simp only [pure_steps] <;> omega

theorem map_inv {p : P α} {f : α → β} {i r : Str} {b : β} (h : Parse.map p f i = some (r, b)) : ∃ a, p i = some (r, a) := by
  unfold Parse.map at h
  split at h
  · cases h
  · rename_i he; cases h; exact ⟨_, he⟩

theorem mul_step {A m n : Nat} (h : m + 1 ≤ n) : A * m + A ≤ A * n := by
  rw [← Nat.mul_succ]; exact Nat.mul_le_mul_left _ h

/-! ### Types -/

variable [Env]

theorem typeGo_gives : ∀ n, Gives (typeGo n) (Parse.typeGo n)
  | 0 => fun _ => rfl
  | n + 1 => alt_gives (builtinAlt_meets _).val (alt_gives (value_gives _ (tag_meets _).val)
      (alt_gives (map_gives (delimited_gives (char_meets _).val (typeGo_gives n) (char_meets _).val) _)
        (map_gives qualifiedIdent_meets.val _)))

theorem typeGo_reads : ∀ n, Reads (typeGo n)
  | 0 => fun _ _ _ e => by cases e
  | n + 1 => alt_reads (builtinAlt_meets _).reads (alt_reads (value_reads _ (tag_meets _).reads)
      (alt_reads (map_reads (delimited_reads (char_meets _).reads (typeGo_reads n) (char_meets _).reads) _)
        (map_reads qualifiedIdent_meets.reads _)))

/-- The rules for types but the one for brackets. -/
def typeC : Nat :=
  (builtinAlt_meets builtins).C + (value_meets (Ty.string) (tag_meets c!"string")).C + (map_meets qualifiedIdent_meets Ty.ident).C + 12

theorem typeGo_steps (N : Nat) : ∀ n i, i.length ≤ N → (typeGo n i).steps ≤ (i.length + 1) * (typeC * (N + 1) ^ 3)
  | 0, i, _ => by
    show 1 ≤ _
    have h1 : 1 ≤ (N + 1) ^ 3 := Nat.pow_pos (Nat.succ_pos _)
    have h2 : 1 ≤ typeC := by unfold typeC; omega
    exact Nat.mul_le_mul (Nat.succ_pos i.length) (Nat.mul_le_mul h2 h1)
  | n + 1, i, hi => by
    have b1 := ((builtinAlt_meets builtins).up 3).steps N i hi
    have b2 := ((value_meets (Ty.string) (tag_meets c!"string")).up 3).steps N i hi
    have b3 := (map_meets qualifiedIdent_meets Ty.ident).steps N i hi
    have hX := @le_pow N 3 (by omega)
    have hD : typeC * (N + 1) ^ 3 = (builtinAlt_meets builtins).C * (N + 1) ^ 3 +
        (value_meets (Ty.string) (tag_meets c!"string")).C * (N + 1) ^ 3 +
        (map_meets qualifiedIdent_meets Ty.ident).C * (N + 1) ^ 3 + 12 * (N + 1) ^ 3 := by
      unfold typeC; rw [Nat.add_mul, Nat.add_mul, Nat.add_mul]
    change _ ≤ (builtinAlt_meets builtins).C * (N + 1) ^ 3 at b1
    change _ ≤ (value_meets (Ty.string) (tag_meets c!"string")).C * (N + 1) ^ 3 at b2
    generalize (builtinAlt_meets builtins).C * (N + 1) ^ 3 = B1 at *
    generalize (value_meets (Ty.string) (tag_meets c!"string")).C * (N + 1) ^ 3 = B2 at *
    generalize (map_meets qualifiedIdent_meets Ty.ident).C * (N + 1) ^ 3 = B3 at *
    have a1 := alt_steps (builtinAlt builtins) (alt (value .string (tag c!"string"))
        (alt (map (delimited (char '[') (typeGo n) (char ']')) .array) (map qualifiedIdent .ident))) i
    have a2 := alt_steps (value Ty.string (tag c!"string"))
        (alt (map (delimited (char '[') (typeGo n) (char ']')) Ty.array) (map qualifiedIdent Ty.ident)) i
    have a3 := alt_steps (map (delimited (char '[') (typeGo n) (char ']')) Ty.array) (map qualifiedIdent Ty.ident) i
    have g := typeGo_gives n
    have gt : Gives (terminated (typeGo n) (char ']')) (Parse.terminated (Parse.typeGo n) (Parse.char ']')) :=
      terminated_gives g (char_meets _).val
    have ct : Consumes (Parse.terminated (Parse.typeGo n) (Parse.char ']')) :=
      terminated_consumes (typeGo_strict n).consumes (char_strict _).consumes
    have a4 := map_steps (delimited_gives (char_meets '[').val g (char_meets ']').val)
      (delimited_consumes (char_strict _).consumes (typeGo_strict n).consumes (char_strict _).consumes) Ty.array i
    have a5 := map_steps (pair_gives (char_meets '[').val gt) (pair_consumes (char_strict _).consumes ct)
      (fun x => x.2) i
    have a6 : (pair (char '[') (terminated (typeGo n) (char ']')) i).steps + 4 ≤
        i.length * (typeC * (N + 1) ^ 3) + N + 9 := by
      have e1 : (char '[' i).steps = 1 := rfl
      cases e : (char '[' i).val with
      | none => rw [pair_steps_none e]; omega
      | some x =>
        obtain ⟨r, a⟩ := x
        rw [pair_steps_some e]
        have hr : r.length + 1 ≤ i.length := (char_strict '[').ne e
        have ih := typeGo_steps N n r (by omega)
        have a7 := map_steps (pair_gives g (char_meets ']').val) (pair_consumes (typeGo_strict n).consumes (char_strict _).consumes)
          (fun x => x.1) r
        have a8 : (pair (typeGo n) (char ']') r).steps ≤ (typeGo n r).steps + 2 := by
          cases e' : (typeGo n r).val with
          | none => rw [pair_steps_none e']; omega
          | some y =>
            rw [pair_steps_some e']
            have : (char ']' y.1).steps = 1 := rfl
            omega
        have h9 : (r.length + 1) * (typeC * (N + 1) ^ 3) ≤ i.length * (typeC * (N + 1) ^ 3) := Nat.mul_le_mul_right _ hr
        change (terminated (typeGo n) (char ']') r).steps ≤ _ at a7
        omega
    rw [Nat.add_mul, Nat.one_mul]
    change (typeGo (n + 1) i).steps ≤ _ at a1
    change (delimited (char '[') (typeGo n) (char ']') i).steps ≤ _ at a5
    generalize i.length * (typeC * (N + 1) ^ 3) = L at *
    omega

def type_meets : Meets 4 type_ Parse.type_ where
  C := typeC
  pos := by omega
  steps N i hi := by
    refine Nat.le_trans (typeGo_steps N _ i hi) ?_
    calc (i.length + 1) * (typeC * (N + 1) ^ 3) ≤ (N + 1) * (typeC * (N + 1) ^ 3) := Nat.mul_le_mul_right _ (by omega)
      _ = typeC * (N + 1) ^ 4 := by rw [Nat.pow_succ (N + 1) 3, Nat.mul_comm (N + 1), Nat.mul_assoc]
  val i := typeGo_gives _ i
  reads i := typeGo_reads _ i
  consumes := type_strict.consumes

/-! ### Lists in brackets -/

/-- The steps of a parser on an input are paid for by the characters it consumes, or by all there are if it fails. -/
structure Paid (A : Nat) (c : CP α) (i : Str) : Prop where
  ok : ∀ r a, (c i).val = some (r, a) → (c i).steps + A * r.length ≤ A * i.length
  bad : (c i).val = none → (c i).steps ≤ A * i.length + A

omit [Env] in
theorem sepGo_paid {A B N : Nat} (hA : B + 1 ≤ A) {s : CP β} {t : P β} {c : CP α} {p : P α} (gs : Gives s t) (gc : Gives c p)
    (hs : Strict t) (hc : Consumes p) (bs : ∀ i : Str, i.length ≤ N → (s i).steps ≤ B)
    (bc : ∀ i : Str, i.length ≤ N → Paid A c i) : ∀ n i, i.length ≤ N →
      ((sepGo s c n i).val = none → (sepGo s c n i).steps ≤ A * i.length + (B + 1)) ∧
      ∀ r as, (sepGo s c n i).val = some (r, as) →
        (sepGo s c n i).steps + A * r.length ≤ A * i.length + (B + 1) ∨
        (sepGo s c n i).steps ≤ A * i.length + (B + 1) ∧ t r ≠ none
  | 0, i, _ => ⟨fun _ => Nat.zero_le _, fun _ _ e => by cases e⟩
  | n + 1, i, hi => by
    have b1 := bs i hi
    have v1 := gs i
    have es : (sepGo s c (n + 1) i).steps = 1 + ((s i).steps + (match (s i).val with
        | none => (pure (some (i, [])) : Ct (Option (Str × List α)))
        | some (r, _) => if r = i then pure none else do
          match ← c r with
          | none => return some (i, [])
          | some (r', a) => if r' = i then return none else
            let x ← sepGo s c n r'
            return Parse.push a x).steps) := rfl
    have ev : (sepGo s c (n + 1) i).val = (match (s i).val with
        | none => (pure (some (i, [])) : Ct (Option (Str × List α)))
        | some (r, _) => if r = i then pure none else do
          match ← c r with
          | none => return some (i, [])
          | some (r', a) => if r' = i then return none else
            let x ← sepGo s c n r'
            return Parse.push a x).val := rfl
    rw [es, ev]
    cases e : (s i).val with
    | none =>
      simp only [pure_steps, pure_val]
      refine ⟨fun h => (by cases h), fun r as h => ?_⟩
      cases h
      exact .inl (by omega)
    | some x =>
      obtain ⟨r1, b⟩ := x
      have ht := v1.symm.trans e
      have hr1 := hs.ne ht
      have hne : r1 ≠ i := by intro he; rw [he] at hr1; exact Nat.lt_irrefl _ hr1
      have m1 := @mul_step A _ _ hr1
      have p1 := bc r1 (by omega)
      simp only [if_neg hne, bind_steps, bind_val]
      cases e1 : (c r1).val with
      | none =>
        have := p1.bad e1
        simp only [pure_steps, pure_val]
        refine ⟨fun h => (by cases h), fun r as h => ?_⟩
        cases h
        exact .inr ⟨by omega, by rw [ht]; simp⟩
      | some y =>
        obtain ⟨r2, a⟩ := y
        have p2 := p1.ok _ _ e1
        have hr2 := Consumes.le hc ((gc r1).symm.trans e1)
        have m2 : A * r2.length ≤ A * r1.length := Nat.mul_le_mul_left _ hr2
        have hne2 : r2 ≠ i := by intro he; rw [he] at hr2; omega
        simp only [if_neg hne2, bind_steps, bind_val, pure_steps, pure_val]
        obtain ⟨i1, i2⟩ := sepGo_paid hA gs gc hs hc bs bc n r2 (by omega)
        cases e2 : (sepGo s c n r2).val with
        | none =>
          have := i1 e2
          exact ⟨fun _ => by omega, fun r as h => by cases h⟩
        | some z =>
          obtain ⟨r3, as⟩ := z
          refine ⟨fun h => (by cases h), fun r as' h => ?_⟩
          cases h
          rcases i2 _ _ e2 with h3 | ⟨h3, h4⟩
          · exact .inl (by omega)
          · exact .inr ⟨by omega, h4⟩

omit [Env] in
theorem sepList0_paid {A B N : Nat} (hA : B + 1 ≤ A) {s : CP β} {t : P β} {c : CP α} {p : P α} (gs : Gives s t) (gc : Gives c p)
    (hs : Strict t) (hc : Consumes p) (bs : ∀ i : Str, i.length ≤ N → (s i).steps ≤ B)
    (bc : ∀ i : Str, i.length ≤ N → Paid A c i) {q : P γ} (hq : ∀ i, t i ≠ none → q i = none)
    (hf : ∀ i : Str, i.length ≤ N → p i = none → (c i).steps ≤ B ∨ q i = none) (i : Str) (hi : i.length ≤ N) :
      ((sepList0 s c i).val = none → (sepList0 s c i).steps ≤ A * i.length + (B + 2)) ∧
      ∀ r as, (sepList0 s c i).val = some (r, as) →
        (sepList0 s c i).steps + A * r.length ≤ A * i.length + (B + 2) ∨
        (sepList0 s c i).steps ≤ A * i.length + A + (B + 2) ∧ q r = none := by
  have p1 := bc i hi
  have es : (sepList0 s c i).steps = 1 + ((c i).steps + (match (c i).val with
      | none => (pure (some (i, [])) : Ct (Option (Str × List α)))
      | some (r, a) => if r = i then pure none else do
          let x ← sepGo s c (r.length + 1) r
          return Parse.push a x).steps) := rfl
  have ev : (sepList0 s c i).val = (match (c i).val with
      | none => (pure (some (i, [])) : Ct (Option (Str × List α)))
      | some (r, a) => if r = i then pure none else do
          let x ← sepGo s c (r.length + 1) r
          return Parse.push a x).val := rfl
  rw [es, ev]
  cases e : (c i).val with
  | none =>
    have p2 := p1.bad e
    simp only [pure_steps, pure_val]
    refine ⟨fun h => (by cases h), fun r as h => ?_⟩
    cases h
    rcases hf i hi ((gc i).symm.trans e) with h | h
    · exact .inl (by omega)
    · exact .inr ⟨by omega, h⟩
  | some y =>
    obtain ⟨r1, a⟩ := y
    have p2 := p1.ok _ _ e
    have hr1 := Consumes.le hc ((gc i).symm.trans e)
    simp only
    split
    · simp only [pure_steps, pure_val]
      exact ⟨fun _ => by omega, fun r as h => by cases h⟩
    · simp only [bind_steps, bind_val, pure_steps, pure_val]
      obtain ⟨i1, i2⟩ := sepGo_paid hA gs gc hs hc bs bc (r1.length + 1) r1 (by omega)
      have m1 : A * r1.length ≤ A * i.length := Nat.mul_le_mul_left _ hr1
      cases e2 : (sepGo s c (r1.length + 1) r1).val with
      | none =>
        have := i1 e2
        exact ⟨fun _ => by omega, fun r as h => by cases h⟩
      | some z =>
        obtain ⟨r3, as⟩ := z
        refine ⟨fun h => (by cases h), fun r as' h => ?_⟩
        cases h
        rcases i2 _ _ e2 with h3 | ⟨h3, h4⟩
        · exact .inl (by omega)
        · exact .inr ⟨by omega, hq _ h4⟩

/-- The shape of lists and objects. -/
abbrev brackets (o : Char) (s : CP β) (c : CP α) (cl : Char) : CP (List α) :=
  delimited (terminated (char o) cos0) (sepList0 s c) (preceded cos0 (char cl))

abbrev Brackets (o : Char) (s : P β) (c : P α) (cl : Char) : P (List α) :=
  Parse.delimited (Parse.terminated (Parse.char o) Parse.cos0) (Parse.sepList0 s c) (Parse.preceded Parse.cos0 (Parse.char cl))

omit [Env] in
theorem delimited_eq {p : P α} {q : P β} {s : P γ} {i i1 : Str} {a : α} (h : p i = some (i1, a)) :
    Parse.delimited p q s i = (match q i1 with
      | none => none
      | some (r, b) => match s r with
        | none => none
        | some (r', _) => some (r', b)) := by
  simp only [Parse.delimited, Parse.preceded, Parse.terminated, Parse.map, Parse.pair, h]
  cases q i1 with
  | none => rfl
  | some x =>
    simp only
    cases s x.1 <;> rfl

omit [Env] in
theorem brackets_cheap {B N : Nat} (hB : N + 1 ≤ B) (o cl : Char) {s : CP β} {t : P β} {c : CP α} {p : P α} (gs : Gives s t)
    (gc : Gives c p) (hs : Strict t) (hc : Consumes p) (i : Str) (hi : i.length ≤ N) (h : Parse.char o i = none) :
    (brackets o s c cl i).steps ≤ 6 * B ∧ (brackets o s c cl i).val = none := by
  have go : Gives (terminated (char o) cos0) (Parse.terminated (Parse.char o) Parse.cos0) :=
    terminated_gives (char_meets o).val cos0_meets.val
  have co : Consumes (Parse.terminated (Parse.char o) Parse.cos0) := terminated_consumes (char_strict _).consumes cos0_consumes
  have gr : Gives (terminated (sepList0 s c) (preceded cos0 (char cl)))
      (Parse.terminated (Parse.sepList0 t p) (Parse.preceded Parse.cos0 (Parse.char cl))) :=
    terminated_gives (sepList0_gives gs gc) (preceded_gives cos0_meets.val (char_meets cl).val)
  have cr : Consumes (Parse.terminated (Parse.sepList0 t p) (Parse.preceded Parse.cos0 (Parse.char cl))) :=
    terminated_consumes (sepList0_consumes hs.consumes hc) (preceded_consumes cos0_consumes (char_strict _).consumes)
  have a1 := map_steps (pair_gives go gr) (pair_consumes co cr) (fun x => x.2) i
  have a2 := map_steps (pair_gives (char_meets o).val cos0_meets.val) (pair_consumes (char_strict o).consumes cos0_consumes)
    (fun x => x.1) i
  have v1 : (char o i).val = none := h
  have v2 : (terminated (char o) cos0 i).val = none := by
    rw [go i]; simp only [Parse.terminated, Parse.map, Parse.pair, h]
  have s1 : (char o i).steps = 1 := rfl
  rw [pair_steps_none v1, s1] at a2
  rw [pair_steps_none v2] at a1
  change (terminated (char o) cos0 i).steps ≤ _ at a2
  change (brackets o s c cl i).steps ≤ _ at a1
  refine ⟨by omega, ?_⟩
  rw [show (brackets o s c cl i).val = Brackets o t p cl i from delimited_gives go (sepList0_gives gs gc)
    (preceded_gives cos0_meets.val (char_meets cl).val) i]
  simp only [Parse.delimited, Parse.preceded, Parse.terminated, Parse.map, Parse.pair, h]

omit [Env] in
theorem brackets_paid {A B N : Nat} (hA : 24 * B ≤ A) (hB : N + 1 ≤ B) (o cl : Char) {s : CP β} {t : P β} {c : CP α} {p : P α}
    (gs : Gives s t) (gc : Gives c p) (hs : Strict t) (hc : Consumes p) (bs : ∀ i : Str, i.length ≤ N → (s i).steps ≤ B)
    (b0 : ∀ i : Str, i.length ≤ N → (cos0 i).steps ≤ B)
    (bc : ∀ i : Str, i.length ≤ N → Paid A c i)
    (hq : ∀ i, t i ≠ none → Parse.preceded Parse.cos0 (Parse.char cl) i = none)
    (hf : ∀ i : Str, i.length ≤ N → p i = none → (c i).steps ≤ B ∨ Parse.preceded Parse.cos0 (Parse.char cl) i = none)
    (i : Str) (hi : i.length ≤ N) :
    ((brackets o s c cl i).val = none → (brackets o s c cl i).steps ≤ A * i.length + 20 * B) ∧
    ∀ r as, (brackets o s c cl i).val = some (r, as) → (brackets o s c cl i).steps + A * r.length + 2 * A ≤ A * i.length + 20 * B := by
  cases ho : Parse.char o i with
  | none =>
    obtain ⟨h1, h2⟩ := brackets_cheap hB o cl gs gc hs hc i hi ho
    exact ⟨fun _ => by omega, fun r as h => by rw [h2] at h; cases h⟩
  | some x =>
    obtain ⟨i0, o'⟩ := x
    have hi0 := (char_strict o).ne ho
    obtain ⟨i1, u, hc0, -⟩ : ∃ i1 u, Parse.cos0 i0 = some (i1, u) ∧ True := by
      obtain ⟨r, as, h, -⟩ := many0_total commentOrSpace_strict i0
      exact ⟨r, (), by simp only [Parse.cos0, Parse.value, Parse.map, h], trivial⟩
    have hi1 := Consumes.le cos0_consumes hc0
    have go : Gives (terminated (char o) cos0) (Parse.terminated (Parse.char o) Parse.cos0) :=
      terminated_gives (char_meets o).val cos0_meets.val
    have co : Consumes (Parse.terminated (Parse.char o) Parse.cos0) := terminated_consumes (char_strict _).consumes cos0_consumes
    have gcl : Gives (preceded cos0 (char cl)) (Parse.preceded Parse.cos0 (Parse.char cl)) :=
      preceded_gives cos0_meets.val (char_meets cl).val
    have ccl : Strict (Parse.preceded Parse.cos0 (Parse.char cl)) := preceded_strict_right cos0_consumes (char_strict _)
    have gl := sepList0_gives gs gc
    have cl' := sepList0_consumes hs.consumes hc
    have gr : Gives (terminated (sepList0 s c) (preceded cos0 (char cl)))
        (Parse.terminated (Parse.sepList0 t p) (Parse.preceded Parse.cos0 (Parse.char cl))) := terminated_gives gl gcl
    have cr : Consumes (Parse.terminated (Parse.sepList0 t p) (Parse.preceded Parse.cos0 (Parse.char cl))) :=
      terminated_consumes cl' ccl.consumes
    have a1 := map_steps (pair_gives go gr) (pair_consumes co cr) (fun x => x.2) i
    have a2 := map_steps (pair_gives (char_meets o).val cos0_meets.val) (pair_consumes (char_strict o).consumes cos0_consumes)
      (fun x => x.1) i
    have v1 : (char o i).val = some (i0, o') := ho
    have w2 : Parse.terminated (Parse.char o) Parse.cos0 i = some (i1, o') := by
      simp only [Parse.terminated, Parse.map, Parse.pair, ho, hc0]
    have v2 : (terminated (char o) cos0 i).val = some (i1, o') := by rw [go i, w2]
    have s1 : (char o i).steps = 1 := rfl
    have s2 := b0 i0 (by omega)
    rw [pair_steps_some v1, s1] at a2
    rw [pair_steps_some v2] at a1
    change (terminated (char o) cos0 i).steps ≤ _ at a2
    change (brackets o s c cl i).steps ≤ _ at a1
    have a3 := map_steps (pair_gives gl gcl) (pair_consumes cl' ccl.consumes) (fun x => x.1) i1
    change (terminated (sepList0 s c) (preceded cos0 (char cl)) i1).steps ≤ _ at a3
    have a4 : ∀ j : Str, j.length ≤ N → (preceded cos0 (char cl) j).steps ≤ 4 * B := by
      intro j hj
      have b1 := map_steps (pair_gives cos0_meets.val (char_meets cl).val) (pair_consumes cos0_consumes (char_strict cl).consumes)
        (fun x => x.2) j
      have b2 := b0 j hj
      change (preceded cos0 (char cl) j).steps ≤ _ at b1
      cases e : (cos0 j).val with
      | none => rw [pair_steps_none e] at b1; omega
      | some y =>
        rw [pair_steps_some e] at b1
        have : (char cl y.1).steps = 1 := rfl
        omega
    obtain ⟨l1, l2⟩ := sepList0_paid (by omega) gs gc hs hc bs bc hq hf i1 (by omega)
    have m1 := @mul_step A _ _ (show i1.length + 1 ≤ i.length by omega)
    have ev : (brackets o s c cl i).val = Brackets o t p cl i := delimited_gives go gl gcl i
    have evl : Brackets o t p cl i = (match Parse.sepList0 t p i1 with
        | none => none
        | some (r, a) => match Parse.preceded Parse.cos0 (Parse.char cl) r with
          | none => none
          | some (r', _) => some (r', a)) := by
      refine (delimited_eq w2).trans ?_
      cases Parse.sepList0 t p i1 with
      | none => rfl
      | some x =>
        simp only
        cases Parse.preceded Parse.cos0 (Parse.char cl) x.1 <;> rfl
    have ll := gl i1
    cases e : (sepList0 s c i1).val with
    | none =>
      have := l1 e
      rw [pair_steps_none e] at a3
      rw [e] at ll
      rw [ev, evl, ← ll]
      exact ⟨fun _ => by omega, fun r as h => by cases h⟩
    | some z =>
      obtain ⟨r2, as⟩ := z
      rw [pair_steps_some e] at a3
      rw [e] at ll
      have hr2 := Consumes.le cl' ll.symm
      have a5 := a4 r2 (by omega)
      rw [ev, evl, ← ll]
      simp only
      cases e2 : Parse.preceded Parse.cos0 (Parse.char cl) r2 with
      | none =>
        refine ⟨fun _ => ?_, fun r as h => by cases h⟩
        rcases l2 _ _ e with h | ⟨h, -⟩ <;> omega
      | some y =>
        obtain ⟨r3, _⟩ := y
        refine ⟨fun h => (by cases h), fun r as' h => ?_⟩
        cases h
        have m2 := @mul_step A _ _ (ccl.ne e2)
        rcases l2 _ _ e with h | ⟨-, h⟩
        · omega
        · rw [e2] at h; cases h

end Butte.Parse.Timed
