import Verif.Parse.Words
/-
Reading what was printed from what was read. A rule that reads a value from a text reads the same value from the
printed form of that value, with any text after it in which no more of the words that the parser looks for occur.
-/
namespace Butte.Parse

open Ast

variable {α β γ : Type} [Env]

/-- The rule reads a value again from its printed form, and the words that occur there occurred in what it had read. -/
def Again (p : P α) (pr : α → Str) (F : Str → Prop) : Prop :=
  ∀ i r a, p i = some (r, a) → ∀ r', F r → F r' → W r r' → p (pr a ++ r') = some (r', a) ∧ W i (pr a ++ r')

/-! ### Words -/

theorem W.ofNil {k r : Str} (h : W [] r) : W k r := by
  intro w hw ho
  obtain ⟨a, b, e, -, -⟩ := h w hw ho
  have e' := (List.append_eq_nil_iff.mp e.symm).2
  exact absurd (List.append_eq_nil_iff.mp e').1 (magic_ne w hw)

/-- White space in front, also at the end of the text. -/
theorem cos0_W {i r : Str} {u : Unit} (h : cos0 i = some (r, u)) {r' : Str} (hw : W r r') : W i r' := by
  cases hr : r with
  | nil => rw [hr] at hw; exact hw.ofNil
  | cons c t =>
    obtain ⟨w, hw', rfl⟩ := cos0_sound h (by rw [hr]; simp)
    exact hw.trivia hw'

theorem stop_trivia {w t : Str} (h : Trivia w) (hne : w ≠ []) : Stop (w ++ t) := by
  rcases trivia_head (t := t) h with rfl | ⟨d, u, e, hd⟩
  · exact absurd rfl hne
  · rw [e]
    exact stop_cons _ (word_ascii' d (by rcases hd with rfl | rfl | rfl | rfl | rfl <;> decide))

omit [Env] in
theorem Follow.ne {r : Str} (h : Follow r) : r ≠ [] := by
  obtain ⟨w, c, t, -, -, rfl⟩ := h
  simp

/-! ### Scalars -/

omit [Env] in
theorem alt_none_inv {p q : P α} {i : Str} (e : alt p q i = none) : p i = none ∧ q i = none := by
  unfold alt at e
  cases e' : p i with
  | none => rw [e'] at e; exact ⟨rfl, e⟩
  | some _ => rw [e'] at e; cases e

theorem scalar_clean {i r : Str} {a : Scalar} (h : scalar i = some (r, a)) (hr : r ≠ []) : NoSpecial i := by
  by_contra hn
  obtain ⟨b, hb⟩ := scalar_swallow (hasSpecial_iff.mpr hn)
  rw [hb] at h
  cases h
  exact hr rfl

theorem scalar_clean_none {i : Str} (h : scalar i = none) : NoSpecial i := by
  by_contra hn
  obtain ⟨b, hb⟩ := scalar_swallow (hasSpecial_iff.mpr hn)
  rw [hb] at h
  cases h

theorem again_scalar (hx : HexfPrefix) : Again scalar printScalar Follow := by
  intro i r a h r' hr hr' hw
  have hq := scalar_clean h hr.ne
  obtain ⟨t, ht, rfl⟩ := scalar_sound hx _ _ _ h hr.ne
  have hW := scalar_W ht hr.stop hr'.stop hw
  exact ⟨scalar_eq (printScalar_text ht.ok) hr'.delim (hW.special hq), hW⟩

theorem single_clean {i r : Str} {a : Single} (h : single i = some (r, a)) (hr : r ≠ []) : NoSpecial i := by
  rcases alt_inv h with h | ⟨hn, -⟩
  · obtain ⟨s, h, -⟩ := map_inv h
    exact scalar_clean h hr
  · exact scalar_clean_none (map_none_inv hn)

theorem single_clean_none {i : Str} (h : single i = none) : NoSpecial i :=
  scalar_clean_none (map_none_inv (alt_none_inv h).1)

theorem again_single (hx : HexfPrefix) : Again single printSingle Follow := by
  intro i r a h r' hr hr' hw
  have hq := single_clean h hr.ne
  obtain ⟨t, ht, rfl⟩ := single_sound hx _ _ _ h hr.ne
  have hW := single_W ht hr.stop hr'.stop hw
  exact ⟨single_eq (printSingle_text ht.ok) hr'.delim (hW.special hq), hW⟩

theorem boolWord_none_iff {b : Bool} {w i : Str} : boolWord b w i = none ↔ hasWord w i = false ∨ ¬ w <+: i := by
  constructor
  · intro h
    by_contra hc
    rw [not_or, not_not, Bool.not_eq_false] at hc
    unfold boolWord value at h
    have := map_none_inv h
    rw [reMatch, if_pos hc.1] at this
    exact tag_none_inv this hc.2
  · rintro (h | h)
    · refine value_none ?_
      rw [reMatch, if_neg (by rw [h]; simp)]
    · exact boolWord_none h

/-- A default without its equals sign. -/
def printDefaultValue : DefaultValue → Str
  | .scalar s => printScalar s
  | .ident i => i

theorem again_default (hx : HexfPrefix) : Again defaultValue printDefaultValue Follow := by
  intro i r a h r' hr hr' hw
  rcases alt_inv h with h | ⟨hn, h⟩
  · obtain ⟨s, g, rfl⟩ := map_inv h
    obtain ⟨h1, h2⟩ := again_scalar hx _ _ _ g r' hr hr' hw
    exact ⟨alt_left (map_eq h1), h2⟩
  · have hn := map_none_inv hn
    have hq := scalar_clean_none hn
    obtain ⟨a, g, rfl⟩ := map_inv h
    obtain ⟨ha, rfl, -⟩ := ident_inv g
    have hW : W (a ++ r) (a ++ r') := W.text a hr.stop hr'.stop hw
    have hq' := hW.special hq
    refine ⟨?_, hW⟩
    show defaultValue (a ++ r') = _
    unfold defaultValue
    rw [alt_right]
    · exact map_eq (ident_eq ha hr'.delim.stops)
    · refine map_none ?_
      have hb := alt_none_inv (map_none_inv (alt_none_inv (alt_none_inv hn).2).2)
      have key : ∀ b w, w ∈ magic → boolWord b w (a ++ r) = none → boolWord b w (a ++ r') = none := by
        intro b w hw h
        rw [boolWord_none_iff] at h ⊢
        rcases h with h | h
        · left
          cases h' : hasWord w (a ++ r') with
          | false => rfl
          | true =>
            rw [(hasWord_iff hw).mpr (hW w hw ((hasWord_iff hw).mp h'))] at h
            cases h
        · right
          intro hp
          exact h ((prefix_stop (fun c hc => (magic_alnum w hw c hc).2) hr'.delim.stopsAlnum hp).trans
            (List.prefix_append a r))
      have k1 := key _ _ (by decide) hb.1
      have k2 := key _ _ (by decide) hb.2
      obtain ⟨c, cs, rfl, h1, h2⟩ := ha.cases
      rw [List.cons_append] at hq' k1 k2 ⊢
      obtain ⟨h5, h6⟩ := number_none (identStart_ne h1 _) (identStart_ne h1 _) (identStart_ne h1 _)
        (identStart_not h1).2.2 hq'
      unfold scalar
      rw [alt_right (map_none h5), alt_right (map_none h6)]
      refine map_none ?_
      unfold booleanConstant
      rw [alt_right k1]
      exact k2

/-! ### Lists -/

theorem sepRest_again {p : P α} {pr : α → Str} {F : Str → Prop} (hp : Strict p) (ha : Again p pr F)
    (hF : ∀ w t, Trivia w → F (w ++ ',' :: t)) (solid : ∀ i r a, p i = some (r, a) → F r → ∀ r', Solid (pr a ++ r'))
    {r r' : Str} (hr : F r) (hr' : F r') (hw : W r r') (hend : delimited cos0 (char ',') cos0 r' = none) :
    ∀ (n : Nat) (i : Str) (as : List α), i.length ≤ n →
      sepRest (delimited cos0 (char ',') cos0) p i = some (r, as) →
      sepRest (delimited cos0 (char ',') cos0) p (sepTail ',' (as.map pr) r') = some (r', as) ∧
        W i (sepTail ',' (as.map pr) r') ∧ F i ∧ F (sepTail ',' (as.map pr) r') := by
  intro n
  induction n with
  | zero =>
    intro i as hi h
    have : i = [] := List.length_eq_zero_iff.mp (by omega)
    subst this
    rw [sepRest_eq (sep_strict ',').consumes hp.consumes] at h
    have : delimited cos0 (char ',') cos0 [] = none := rfl
    rw [this] at h
    cases h
    refine ⟨?_, hw, hr, hr'⟩
    show sepRest _ p r' = _
    rw [sepRest_eq (sep_strict ',').consumes hp.consumes, hend]
  | succ n ih =>
    intro i as hi h
    rw [sepRest_eq (sep_strict ',').consumes hp.consumes] at h
    have stop : as = [] → i = r → _ := fun (e1 : as = []) (e2 : i = r) => by
      subst e1; subst e2
      refine (⟨?_, hw, hr, hr'⟩ : sepRest (delimited cos0 (char ',') cos0) p (sepTail ',' (([] : List α).map pr) r') =
        some (r', []) ∧ W i (sepTail ',' (([] : List α).map pr) r') ∧ F i ∧ F (sepTail ',' (([] : List α).map pr) r'))
      show sepRest _ p r' = _
      rw [sepRest_eq (sep_strict ',').consumes hp.consumes, hend]
    cases hs : delimited cos0 (char ',') cos0 i with
    | none =>
      rw [hs] at h
      cases h
      exact stop rfl rfl
    | some x =>
      obtain ⟨r1, b⟩ := x
      rw [hs] at h
      dsimp only at h
      split at h
      · cases h
      cases hp1 : p r1 with
      | none =>
        rw [hp1] at h
        cases h
        exact stop rfl rfl
      | some y =>
        obtain ⟨r2, a⟩ := y
        rw [hp1] at h
        dsimp only at h
        split at h
        · cases h
        obtain ⟨as', h', rfl⟩ := push_some h
        have l1 := (sep_strict ',').ne hs
        have l2 := hp.ne hp1
        obtain ⟨i1, i2, i3, i4⟩ := ih r2 as' (by omega) h'
        obtain ⟨j1, j2⟩ := ha _ _ _ hp1 _ i3 i4 i2
        obtain ⟨w₁, w₂, hw₁, hw₂, rfl⟩ := sepChar_inv _ _ _ _ hs (by rintro rfl; simp at l2)
        have e : sepTail ',' ((a :: as').map pr) r' = ',' :: (pr a ++ sepTail ',' (as'.map pr) r') := rfl
        refine ⟨?_, ?_, hF _ _ hw₁, hF [] _ .nil⟩
        · obtain ⟨b, hb⟩ := comma_ok (w₁ := []) (w₂ := []) .nil .nil (solid _ _ _ hp1 i3 (sepTail ',' (as'.map pr) r'))
          simp only [List.nil_append] at hb
          have l3 := (sep_strict ',').ne hb
          have l4 := hp.ne j1
          rw [e, sepRest_eq (sep_strict ',').consumes hp.consumes, hb]
          dsimp only
          rw [if_neg (by intro h; have := congrArg List.length h; omega), j1]
          dsimp only
          rw [if_neg (by intro h; have := congrArg List.length h; omega), i1]
          rfl
        · rw [e]
          exact (W.punct ',' (j2.trivia hw₂)).trivia hw₁

theorem sepList0_again {p : P α} {pr : α → Str} {F : Str → Prop} (hp : Strict p) (ha : Again p pr F)
    (hF : ∀ w t, Trivia w → F (w ++ ',' :: t)) (solid : ∀ i r a, p i = some (r, a) → F r → ∀ r', Solid (pr a ++ r'))
    {r r' : Str} (hr : F r) (hr' : F r') (hw : W r r') (hend : delimited cos0 (char ',') cos0 r' = none)
    {i : Str} {as : List α} (h : sepList0 (delimited cos0 (char ',') cos0) p i = some (r, as))
    (hnone : p i = none → W i r' → p r' = none) (hsr : Solid r') :
    sepList0 (delimited cos0 (char ',') cos0) p (joinWith ',' (as.map pr) ++ r') = some (r', as) ∧
      W i (joinWith ',' (as.map pr) ++ r') ∧ Solid (joinWith ',' (as.map pr) ++ r') := by
  unfold sepList0 at h
  cases hp1 : p i with
  | none =>
    rw [hp1] at h
    cases h
    refine ⟨?_, hw, hsr⟩
    show sepList0 _ p r' = _
    unfold sepList0
    rw [hnone hp1 hw]
  | some x =>
    rw [hp1] at h
    obtain ⟨j, a, as', h1, -, h2, rfl⟩ := sepList1_some h
    obtain ⟨i1, i2, i3, i4⟩ := sepRest_again hp ha hF solid hr hr' hw hend _ j as' le_rfl h2
    obtain ⟨j1, j2⟩ := ha _ _ _ h1 _ i3 i4 i2
    have l := hp.ne j1
    rw [List.map_cons, join_tail]
    refine ⟨?_, j2, solid _ _ _ h1 i3 _⟩
    unfold sepList0
    rw [j1]
    dsimp only
    unfold sepList1
    rw [j1]
    dsimp only
    rw [if_neg (by intro h; have := congrArg List.length h; omega)]
    have : sepGo (delimited cos0 (char ',') cos0) p ((sepTail ',' (as'.map pr) r').length + 1)
      (sepTail ',' (as'.map pr) r') = some (r', as') := i1
    rw [this]
    rfl

theorem many0_again {p : P α} {pr : α → Str} (hp : Strict p) (ha : Again p pr (fun _ => True))
    (hnil : p [] = none) (solid : ∀ i r a, p i = some (r, a) → ∀ r', Solid (pr a ++ r'))
    {r r' : Str} (hw : W r r') (hend : delimited cos0 p cos0 r' = none) (hsr : cos0 r' = some (r', ())) :
    ∀ (n : Nat) (i : Str) (as : List α), i.length ≤ n →
      many0 (delimited cos0 p cos0) i = some (r, as) →
      many0 (delimited cos0 p cos0) (as.flatMap pr ++ r') = some (r', as) ∧
        W i (as.flatMap pr ++ r') ∧ cos0 (as.flatMap pr ++ r') = some (as.flatMap pr ++ r', ()) := by
  have hc := (spaced_strict hp)
  intro n
  induction n with
  | zero =>
    intro i as hi h
    have : i = [] := List.length_eq_zero_iff.mp (by omega)
    subst this
    rw [many0_eq hc.consumes, spaced_nil hnil] at h
    cases h
    refine ⟨?_, hw, hsr⟩
    show many0 _ r' = _
    rw [many0_eq hc.consumes, hend]
  | succ n ih =>
    intro i as hi h
    rw [many0_eq hc.consumes] at h
    cases hp1 : delimited cos0 p cos0 i with
    | none =>
      rw [hp1] at h
      cases h
      refine ⟨?_, hw, hsr⟩
      show many0 _ r' = _
      rw [many0_eq hc.consumes, hend]
    | some x =>
      obtain ⟨r1, a⟩ := x
      rw [hp1] at h
      dsimp only at h
      split at h
      · cases h
      obtain ⟨as', h', rfl⟩ := push_some h
      have l1 := hc.ne hp1
      obtain ⟨i1, i2, i3⟩ := ih r1 as' (by omega) h'
      obtain ⟨j, k, u, v, h1, h2, h3⟩ := delimited_inv hp1
      obtain ⟨j1, j2⟩ := ha _ _ _ h2 (as'.flatMap pr ++ r') trivial trivial (cos0_W h3 i2)
      have e : (a :: as').flatMap pr ++ r' = pr a ++ (as'.flatMap pr ++ r') := by simp
      have hs := cos0_solid (solid _ _ _ h2 (as'.flatMap pr ++ r'))
      rw [e]
      refine ⟨?_, cos0_W h1 j2, hs⟩
      have hd : delimited cos0 p cos0 (pr a ++ (as'.flatMap pr ++ r')) = some (as'.flatMap pr ++ r', a) :=
        delimited_eq hs j1 i3
      have l2 := hc.ne hd
      rw [many0_eq hc.consumes, hd]
      dsimp only
      rw [if_neg (by intro h; have := congrArg List.length h; omega), i1]
      rfl

/-! ### Metadata -/

theorem again_metaItem (hx : HexfPrefix) :
    Again (pair ident (opt (preceded cos0 (preceded (char ':') (preceded cos0 single))))) printMetaItem (Next c!",)") := by
  intro i r a h r' hr hr' hw
  obtain ⟨k, v⟩ := a
  obtain ⟨j, h1, h2⟩ := pair_inv h
  dsimp only at h1 h2
  obtain ⟨hk, rfl, -⟩ := ident_inv h1
  rcases opt_inv h2 with ⟨s, h3, rfl⟩ | ⟨-, rfl, rfl⟩
  · obtain ⟨j1, u, h4, h5⟩ := preceded_inv h3
    obtain ⟨j2, c, h6, h7⟩ := preceded_inv h5
    obtain ⟨j3, u', h8, h9⟩ := preceded_inv h7
    obtain ⟨g1, g2⟩ := again_single hx _ _ _ h9 r' hr.follow hr'.follow hw
    obtain ⟨t, ht, rfl⟩ := single_sound hx _ _ _ h9 hr.follow.ne
    obtain ⟨w₂, hw₂, rfl⟩ := cos0_sound h8 (append_ne hr.follow.ne)
    have := char_inv h6
    subst this
    obtain ⟨w₁, hw₁, rfl⟩ := cos0_sound h4 (by simp)
    have e : printMetaItem (k, some s) ++ r' = k ++ ':' :: (printSingle s ++ r') := by simp [printMetaItem]
    rw [e]
    refine ⟨pair_eq (ident_eq hk (Follow.mk ':' _).delim.stops) (opt_some (preceded_eq (cos0_solid (solid_punct _ _))
      (preceded_eq (char_eq _ _) (preceded_eq (cos0_solid (single_tok (printSingle_text ht.ok) _).solid) g1)))), ?_⟩
    exact W.text k (Follow.trivia hw₁ ':').stop (stop_punct ':' _) ((W.punct ':' (g2.trivia hw₂)).trivia hw₁)
  · refine ⟨pair_eq (ident_eq hk hr'.follow.delim.stops) (opt_none ?_), W.text k hr.follow.stop hr'.follow.stop hw⟩
    obtain ⟨c, t, hc, e⟩ := hr'.cos0
    exact preceded_none_right e (preceded_none_left (char_none (by rintro rfl; revert hc; decide)))

theorem metaItem_printed (hx : HexfPrefix) (i r : Str) (a : Ident × Option Single)
    (h : pair ident (opt (preceded cos0 (preceded (char ':') (preceded cos0 single)))) i = some (r, a)) (r' : Str) :
    Solid (printMetaItem a ++ r') := by
  obtain ⟨k, v⟩ := a
  obtain ⟨j, h1, -⟩ := pair_inv h
  obtain ⟨hk, -, -⟩ := ident_inv h1
  cases v with
  | none => exact (hk.tok _).solid
  | some v =>
    have e : printMetaItem (k, some v) ++ r' = k ++ ':' :: (printSingle v ++ r') := by simp [printMetaItem]
    rw [e]
    exact (hk.tok _).solid

theorem again_rawMetadata (hx : HexfPrefix) : Again rawMetadata (fun m => printMeta (some m)) (fun _ => True) := by
  intro i r m h r' _ _ hw
  obtain ⟨j, k, a, c, h1, h2, h3⟩ := delimited_inv h
  obtain ⟨k', u, h4, h5⟩ := preceded_inv h3
  have := char_inv h5
  subst this
  obtain ⟨w₂, hw₂, rfl⟩ := cos0_sound h4 (by simp)
  obtain ⟨j', u', h6, h7⟩ := terminated_inv h1
  have := char_inv h6
  subst this
  have hs : Solid (')' :: r') := solid_punct _ _
  have hn : Next c!",)" (')' :: r') := Next.mk _ (w := []) .nil ')' r'
  obtain ⟨g1, g2, g3⟩ := sepList0_again metaItem_strict (again_metaItem hx) (fun w t hw => Next.mk _ hw ',' t)
    (fun i r a h _ r' => metaItem_printed hx i r a h r')
    (Next.mk _ hw₂ ')' r) hn ((W.punct ')' hw).trivia hw₂)
    (comma_none (l := c!")") (Next.mk _ (w := []) .nil ')' r')) h2
    (fun _ _ => pair_none_left (ident_none (identStart_punct _))) hs
  have e : printMeta (some m) ++ r' = '(' :: (joinWith ',' (m.map printMetaItem) ++ ')' :: r') := by simp [printMeta]
  show rawMetadata (printMeta (some m) ++ r') = _ ∧ W _ (printMeta (some m) ++ r')
  rw [e]
  exact ⟨delimited_eq (terminated_eq (char_eq _ _) (cos0_solid g3)) g1 (preceded_eq (cos0_solid hs) (char_eq _ _)),
    W.punct '(' (cos0_W h7 g2)⟩

theorem again_metadata (hx : HexfPrefix) {i r : Str} {m : Option Metadata} (h : metadata i = some (r, m)) {c : Char}
    {t : Str} (hw : W r (c :: t)) (hc : c ≠ '(') :
    metadata (printMeta m ++ c :: t) = some (c :: t, m) ∧ W i (printMeta m ++ c :: t) := by
  rcases opt_inv h with ⟨s, h1, rfl⟩ | ⟨-, rfl, rfl⟩
  · obtain ⟨g1, g2⟩ := again_rawMetadata hx _ _ _ h1 (c :: t) trivial trivial hw
    exact ⟨opt_some g1, g2⟩
  · exact ⟨opt_none (delimited_none_left (terminated_none_left (char_none hc))), hw⟩

omit [Env] in
/-- Printed metadata begins at once. -/
theorem printMeta_next (m : Option Metadata) {l : Str} (c : Char) (t : Str) (hp : '(' ∈ l := by decide)
    (hc : c ∈ l := by decide) : Next l (printMeta m ++ c :: t) := by
  cases m with
  | none => exact ⟨[], c, t, .nil, hc, rfl⟩
  | some m => exact ⟨[], '(', _, .nil, hp, rfl⟩

omit [Env] in
theorem printMeta_solid (m : Option Metadata) (c : Char) (t : Str) (h : c ≠ '/' := by decide)
    (hs : isSpace c = false := by decide) : Solid (printMeta m ++ c :: t) := by
  cases m with
  | none => exact solid_punct c t h hs
  | some m => exact solid_punct _ _

/-! ### Fields, tables and structs -/

theorem again_optDefault (hx : HexfPrefix) {i r : Str} {d : Option DefaultValue}
    (h : opt (preceded (pair cos0 (pair (char '=') cos0)) defaultValue) i = some (r, d)) {r' : Str} (hr : Follow r)
    (hr' : Next c!"(;" r') (hw : W r r') :
    opt (preceded (pair cos0 (pair (char '=') cos0)) defaultValue) (printDefault d ++ r') = some (r', d) ∧
      W i (printDefault d ++ r') ∧ Follow i ∧ Follow (printDefault d ++ r') := by
  rcases opt_inv h with ⟨v, h15, rfl⟩ | ⟨-, rfl, rfl⟩
  · obtain ⟨j7, ⟨u1, c1, u2⟩, h16, h17⟩ := preceded_inv h15
    obtain ⟨g1, g2⟩ := again_default hx _ _ _ h17 r' hr hr'.follow hw
    obtain ⟨t, ht, rfl⟩ := default_sound hx h17 hr.ne (follow_word hr)
    obtain ⟨j8, h18, h19⟩ := pair_inv h16
    obtain ⟨j9, h20, h21⟩ := pair_inv h19
    dsimp only at h18 h20 h21
    obtain ⟨v₂, hv₂, rfl⟩ := cos0_sound h21 (append_ne hr.ne)
    have := char_inv h20
    subst this
    obtain ⟨v₁, hv₁, rfl⟩ := cos0_sound h18 (by simp)
    have e : printDefault (some v) ++ r' = '=' :: (printDefaultValue v ++ r') := by cases v <;> rfl
    have hs : Solid (printDefaultValue v ++ r') := by
      cases ht with
      | scalar ht => exact (scalar_tok (printScalar_text ht.ok) _).solid
      | ident hi => exact (hi.tok _).solid
    rw [e]
    exact ⟨opt_some (preceded_eq (pair_eq (cos0_solid (solid_punct _ _)) (pair_eq (char_eq _ _) (cos0_solid hs))) g1),
      (W.punct '=' (g2.trivia hv₂)).trivia hv₁, Follow.trivia hv₁ '=', Follow.mk '=' _⟩
  · refine ⟨?_, hw, hr, hr'.follow⟩
    obtain ⟨c, s, hc, e⟩ := hr'.cos0
    exact opt_none (preceded_none_left (pair_none_right e (pair_none_left (char_none
      (by rintro rfl; revert hc; decide)))))

theorem again_field (hx : HexfPrefix) : Again fieldDecl printField (fun _ => True) := by
  intro i r f h r' _ _ hw
  obtain ⟨⟨d, id, ty, df, m⟩, g, rfl⟩ := map_inv h
  obtain ⟨j, ⟨u, c⟩, h1, h2⟩ := terminated_inv g
  obtain ⟨j1, h3, h4⟩ := pair_inv h2
  have := char_inv h4
  subst this
  dsimp only at h3
  obtain ⟨w₄, hw₄, rfl⟩ := cos0_sound h3 (by simp)
  obtain ⟨j2, h5, h6⟩ := pair_inv h1
  obtain ⟨j3, h7, h8⟩ := pair_inv h6
  obtain ⟨j4, h9, h10⟩ := pair_inv h8
  obtain ⟨j5, h11, h12⟩ := pair_inv h10
  dsimp only at h5 h7 h9 h11 h12
  obtain ⟨j6, u', h13, h14⟩ := preceded_inv h12
  obtain ⟨m1, m2⟩ := again_metadata hx h14 (c := ';') (t := r') ((W.punct ';' hw).trivia hw₄) (by decide)
  obtain ⟨mt, hm, rfl⟩ := metadata_sound hx _ _ _ h14
  obtain ⟨w₃, hw₃, rfl⟩ := cos0_sound h13 (by simp)
  have hf : Follow (w₃ ++ (mt ++ (w₄ ++ ';' :: r))) :=
    Follow.skip hw₃ (metaText_follow hm (Follow.trivia hw₄ ';'))
  obtain ⟨d1, d2, d3, d4⟩ := again_optDefault hx h11 hf (printMeta_next m ';' r') (m2.trivia hw₃)
  obtain ⟨tt, htt, rfl⟩ := type_sound _ _ _ h9 d3.ne
  have t1 := type_eq (printTy_text htt.ok) d4
  have t2 := ty_W htt d3.stop d4.stop d2
  obtain ⟨j7, ⟨u1, c1, u2⟩, h15, h16⟩ := terminated_inv h7
  obtain ⟨j8, h18, h19⟩ := pair_inv h16
  obtain ⟨j9, h20, h21⟩ := pair_inv h19
  dsimp only at h18 h20 h21
  obtain ⟨w₂, hw₂, rfl⟩ := cos0_sound h21 (append_ne d3.ne)
  have := char_inv h20
  subst this
  obtain ⟨w₁, hw₁, rfl⟩ := cos0_sound h18 (by simp)
  obtain ⟨hid, rfl, -⟩ := ident_inv h15
  obtain ⟨dc, hdc, rfl⟩ := docComment_sound _ _ _ h5 (by simp)
  have e : printField ⟨id, ty, df, m, d⟩ ++ r' = printDoc d ++ (id ++ ':' :: (printTy ty ++ (printDefault df ++
    (printMeta m ++ ';' :: r')))) := by simp [printField]
  dsimp only
  rw [e]
  refine ⟨?_, ?_⟩
  · exact map_eq (a := (d, id, ty, df, m)) (terminated_eq
      (pair_eq (docComment_eq (printDoc_text hdc.ok) (hid.tok _)) (pair_eq (terminated_eq
        (ident_eq hid (Follow.mk ':' _).delim.stops)
        (pair_eq (cos0_solid (solid_punct _ _)) (pair_eq (char_eq _ _)
          (cos0_solid (ty_tok (printTy_text htt.ok) _).solid))))
        (pair_eq t1 (pair_eq d1 (preceded_eq (cos0_solid (printMeta_solid m ';' r')) m1)))))
      (pair_eq (cos0_solid (solid_punct _ _)) (char_eq _ _)))
  · exact doc_W hdc (W.text id (Follow.trivia hw₁ ':').stop (stop_punct ':' _)
      ((W.punct ':' (t2.trivia hw₂)).trivia hw₁))

theorem field_printed (hx : HexfPrefix) (i r : Str) (f : Field) (h : fieldDecl i = some (r, f)) (r' : Str) :
    Solid (printField f ++ r') := by
  obtain ⟨t, ht, -⟩ := fieldDecl_sound hx _ _ _ h
  exact field_solid (printField_text ht.ok) r'

theorem again_product (hx : HexfPrefix) {kw : Str} (hk : Tok kw) :
    Again (productDecl kw) (printProduct kw) (fun _ => True) := by
  intro i r p h r' _ _ hw
  obtain ⟨⟨d, id, m, fs⟩, g, rfl⟩ := map_inv h
  obtain ⟨j, h1, h2⟩ := pair_inv g
  obtain ⟨j1, a, h3, h4⟩ := preceded_inv h2
  obtain ⟨j2, h5, h6⟩ := pair_inv h4
  obtain ⟨j3, h7, h8⟩ := pair_inv h6
  dsimp only at h1 h5 h7 h8
  obtain ⟨j4, j5, a1, c1, h9, h10, h11⟩ := delimited_inv h8
  obtain ⟨j6, u, h12, h13⟩ := terminated_inv h11
  have := char_inv h13
  subst this
  obtain ⟨j7, c, h14, h15⟩ := preceded_inv h9
  have := char_inv h14
  subst this
  have hs : Solid ('}' :: r') := solid_punct _ _
  obtain ⟨f1, f2, f3⟩ := many0_again fieldDecl_strict (again_field hx) fieldDecl_nil (field_printed hx)
    (r' := '}' :: r') (cos0_W h12 (W.punct '}' hw)) (delimited_none_mid (cos0_solid hs) (fieldDecl_brace r'))
    (cos0_solid hs) _ j4 fs le_rfl h10
  obtain ⟨j8, u8, h16, h17⟩ := terminated_inv h7
  obtain ⟨m1, m2⟩ := again_metadata hx h16 (c := '{') (t := fs.flatMap printField ++ '}' :: r')
    (cos0_W h17 (W.punct '{' (cos0_W h15 f2))) (by decide)
  obtain ⟨w₃, hw₃, rfl⟩ := cos0_sound h17 (by simp)
  obtain ⟨mt, hm, rfl⟩ := metadata_sound hx _ _ _ h16
  obtain ⟨j9, j10, u9, u10, h18, h19, h20⟩ := delimited_inv h5
  obtain ⟨w₂, hw₂, rfl⟩ := cos0_sound h20 (by simp)
  obtain ⟨hid, rfl, -⟩ := ident_inv h19
  obtain ⟨w₁, hw₁, hne₁, rfl⟩ := cos1_sound h18 (by simp)
  have := tag_inv h3
  subst this
  obtain ⟨dc, hdc, rfl⟩ := docComment_sound _ _ _ h1 (by simp)
  have e : printProduct kw ⟨id, fs, m, d⟩ ++ r' = printDoc d ++ (kw ++ ([' '] ++ (id ++ (printMeta m ++ '{' ::
    (fs.flatMap printField ++ '}' :: r'))))) := by simp [printProduct]
  dsimp only
  rw [e]
  have n1 : Follow (printMeta m ++ '{' :: (fs.flatMap printField ++ '}' :: r')) :=
    (printMeta_next m (l := c!"({") '{' _).follow
  have n2 : Follow (w₂ ++ (mt ++ (w₃ ++ '{' :: j7))) := Follow.skip hw₂ (metaText_follow hm (Follow.trivia hw₃ '{'))
  have hsp := word_ascii' ' '
  refine ⟨?_, ?_⟩
  · exact map_eq (a := (d, id, m, fs)) (pair_eq (docComment_eq (printDoc_text hdc.ok) (hk.append _))
      (preceded_eq (tag_eq _ _) (pair_eq (delimited_eq (cos1_skip space_trivia (by simp) (hid.tok _).solid)
        (ident_eq hid n1.delim.stops) (cos0_solid (printMeta_solid m '{' _)))
        (pair_eq (terminated_eq m1 (cos0_solid (solid_punct _ _)))
          (delimited_eq (preceded_eq (char_eq _ _) f3) f1 (terminated_eq (cos0_solid hs) (char_eq _ _)))))))
  · refine doc_W hdc (W.text kw (stop_trivia hw₁ hne₁) (stop_cons _ hsp) ?_)
    exact W.insert hsp ((W.text id n2.stop n1.stop (m2.trivia hw₂)).trivia hw₁)

/-! ### Enums and unions -/

theorem again_enum (hx : HexfPrefix) : Again enumDecl printEnum (fun _ => True) := by
  intro i r e h r' _ _ hw
  obtain ⟨⟨d, id, ty, m, vs⟩, g, rfl⟩ := map_inv h
  obtain ⟨j, h1, h2⟩ := pair_inv g
  obtain ⟨j1, h3, h4⟩ := pair_inv h2
  obtain ⟨j2, h5, h6⟩ := pair_inv h4
  obtain ⟨j3, h7, h8⟩ := pair_inv h6
  dsimp only at h1 h3 h5 h7 h8
  obtain ⟨b, hb, rfl⟩ := enumBody_sound _ _ _ h8
  have eb : printBody vs ++ r' = '{' :: (joinWith ',' (vs.map printVariant) ++ '}' :: r') := by simp [printBody]
  have b2 := body_W hb hw
  have b1 := enumBody_eq (r := r') (printBody_text hb.ok)
  rw [eb] at b1 b2
  obtain ⟨m1, m2⟩ := again_metadata hx h7 b2 (by decide)
  obtain ⟨mt, hm, rfl⟩ := metadata_sound hx _ _ _ h7
  obtain ⟨k1, c, h9, h10⟩ := preceded_inv h5
  obtain ⟨k2, u, h11, h12⟩ := preceded_inv h10
  obtain ⟨tt, htt, rfl⟩ := type_sound _ _ _ h12 (append_ne (bodyText_ne hb))
  obtain ⟨w₃, hw₃, rfl⟩ := cos0_sound h11 (append_ne (append_ne (bodyText_ne hb)))
  have := char_inv h9
  subst this
  obtain ⟨k3, a, h13, h14⟩ := preceded_inv h3
  obtain ⟨k4, k5, u4, u5, h15, h16, h17⟩ := delimited_inv h14
  obtain ⟨w₂, hw₂, rfl⟩ := cos0_sound h17 (by simp)
  obtain ⟨hid, rfl, -⟩ := ident_inv h16
  obtain ⟨w₁, hw₁, hne₁, rfl⟩ := cos1_sound h15 (by simp)
  have := tag_inv h13
  subst this
  obtain ⟨dc, hdc, rfl⟩ := docComment_sound _ _ _ h1 (by simp)
  have e : printEnum ⟨id, vs, ty, m, d⟩ ++ r' = printDoc d ++ (c!"enum" ++ ([' '] ++ (id ++ ':' :: (printTy ty ++
    (printMeta m ++ (printBody vs ++ r')))))) := by simp [printEnum]
  dsimp only
  rw [e, eb]
  have n1 : Follow (printMeta m ++ '{' :: (joinWith ',' (vs.map printVariant) ++ '}' :: r')) :=
    (printMeta_next m (l := c!"({") '{' _).follow
  have n2 : Follow (mt ++ (b ++ r)) := by
    obtain ⟨⟨w, s, hw, rfl⟩, -⟩ := bodyText_open hb
    refine metaText_follow hm ?_
    rw [List.append_assoc]
    exact Follow.trivia hw '{'
  have hsp := word_ascii' ' '
  have htt' := printTy_text htt.ok
  refine ⟨?_, ?_⟩
  · exact map_eq (a := (d, id, ty, m, vs)) (pair_eq (docComment_eq (printDoc_text hdc.ok)
      ((tok_cons 'e' c!"num").append _)) (pair_eq (preceded_eq (tag_eq _ _)
        (delimited_eq (cos1_skip space_trivia (by simp) (hid.tok _).solid) (ident_eq hid (Follow.mk ':' _).delim.stops)
          (cos0_solid (solid_punct _ _))))
        (pair_eq (preceded_eq (char_eq _ _) (preceded_eq (cos0_solid (ty_tok htt' _).solid) (type_eq htt' n1)))
          (pair_eq m1 b1))))
  · refine doc_W hdc (W.text c!"enum" (stop_trivia hw₁ hne₁) (stop_cons _ hsp) ?_)
    refine W.insert hsp ((W.text id (Follow.trivia hw₂ ':').stop (stop_punct ':' _) ?_).trivia hw₁)
    exact (W.punct ':' ((ty_W htt n2.stop n1.stop m2).trivia hw₃)).trivia hw₂

theorem again_union (hx : HexfPrefix) : Again unionDecl printUnion (fun _ => True) := by
  intro i r e h r' _ _ hw
  obtain ⟨⟨d, id, m, vs⟩, g, rfl⟩ := map_inv h
  obtain ⟨j, h1, h2⟩ := pair_inv g
  obtain ⟨j1, h3, h4⟩ := pair_inv h2
  obtain ⟨j3, h7, h8⟩ := pair_inv h4
  dsimp only at h1 h3 h7 h8
  obtain ⟨b, hb, rfl⟩ := enumBody_sound _ _ _ h8
  have eb : printBody vs ++ r' = '{' :: (joinWith ',' (vs.map printVariant) ++ '}' :: r') := by simp [printBody]
  have b2 := body_W hb hw
  have b1 := enumBody_eq (r := r') (printBody_text hb.ok)
  rw [eb] at b1 b2
  obtain ⟨m1, m2⟩ := again_metadata hx h7 b2 (by decide)
  obtain ⟨mt, hm, rfl⟩ := metadata_sound hx _ _ _ h7
  obtain ⟨k3, a, h13, h14⟩ := preceded_inv h3
  obtain ⟨k4, k5, u4, u5, h15, h16, h17⟩ := delimited_inv h14
  obtain ⟨w₂, hw₂, rfl⟩ := cos0_sound h17 (append_ne (bodyText_ne hb))
  obtain ⟨hid, rfl, -⟩ := ident_inv h16
  obtain ⟨w₁, hw₁, hne₁, rfl⟩ := cos1_sound h15 (append_ne (append_ne (append_ne (bodyText_ne hb))))
  have := tag_inv h13
  subst this
  obtain ⟨dc, hdc, rfl⟩ := docComment_sound _ _ _ h1 (by simp)
  have e : printUnion ⟨id, vs, m, d⟩ ++ r' = printDoc d ++ (c!"union" ++ ([' '] ++ (id ++ (printMeta m ++
    (printBody vs ++ r'))))) := by simp [printUnion]
  dsimp only
  rw [e, eb]
  have n1 : Follow (printMeta m ++ '{' :: (joinWith ',' (vs.map printVariant) ++ '}' :: r')) :=
    (printMeta_next m (l := c!"({") '{' _).follow
  have n2 : Follow (w₂ ++ (mt ++ (b ++ r))) := by
    obtain ⟨⟨w, s, hw, rfl⟩, -⟩ := bodyText_open hb
    refine Follow.skip hw₂ (metaText_follow hm ?_)
    rw [List.append_assoc]
    exact Follow.trivia hw '{'
  have hsp := word_ascii' ' '
  refine ⟨?_, ?_⟩
  · exact map_eq (a := (d, id, m, vs)) (pair_eq (docComment_eq (printDoc_text hdc.ok)
      ((tok_cons 'u' c!"nion").append _)) (pair_eq (preceded_eq (tag_eq _ _)
        (delimited_eq (cos1_skip space_trivia (by simp) (hid.tok _).solid) (ident_eq hid n1.delim.stops)
          (cos0_solid (printMeta_solid m '{' _))))
        (pair_eq m1 b1)))
  · refine doc_W hdc (W.text c!"union" (stop_trivia hw₁ hne₁) (stop_cons _ hsp) ?_)
    exact W.insert hsp ((W.text id n2.stop n1.stop (m2.trivia hw₂)).trivia hw₁)

/-! ### Services -/

theorem again_method (hx : HexfPrefix) : Again rpcMethod printMethod (fun _ => True) := by
  intro i r e h r' _ _ hw
  obtain ⟨⟨d, id, q₁, q₂, m⟩, g, rfl⟩ := map_inv h
  obtain ⟨j, h1, h2⟩ := pair_inv g
  obtain ⟨j1, h3, h4⟩ := pair_inv h2
  obtain ⟨j2, h5, h6⟩ := pair_inv h4
  dsimp only at h1 h3 h5 h6
  obtain ⟨k1, c, h7, h8⟩ := preceded_inv h6
  obtain ⟨k2, c2, h9, h10⟩ := terminated_inv h8
  obtain ⟨k3, u, h11, h12⟩ := terminated_inv h10
  have := char_inv h12
  subst this
  obtain ⟨w₇, hw₇, rfl⟩ := cos0_sound h11 (by simp)
  obtain ⟨k4, h13, h14⟩ := pair_inv h9
  dsimp only at h13 h14
  obtain ⟨k5, u5, h15, h16⟩ := preceded_inv h14
  obtain ⟨m1, m2⟩ := again_metadata hx h16 (c := ';') (t := r') ((W.punct ';' hw).trivia hw₇) (by decide)
  obtain ⟨mt, hm, rfl⟩ := metadata_sound hx _ _ _ h16
  obtain ⟨w₆, hw₆, rfl⟩ := cos0_sound h15 (by simp)
  obtain ⟨t₂, ht₂, rfl⟩ := qualifiedIdent_sound _ _ _ h13 (by simp)
  obtain ⟨w₄, w₅, hw₄, hw₅, rfl⟩ := sepChar_inv _ _ _ _ h7 (by simp)
  obtain ⟨l1, l2, c3, c4, h17, h18, h19⟩ := delimited_inv h5
  have := char_inv h17
  subst this
  have := char_inv h19
  subst this
  obtain ⟨l3, l4, u3, u4, h20, h21, h22⟩ := delimited_inv h18
  obtain ⟨w₃, hw₃, rfl⟩ := cos0_sound h22 (by simp)
  obtain ⟨t₁, ht₁, rfl⟩ := qualifiedIdent_sound _ _ _ h21 (by simp)
  obtain ⟨w₂, hw₂, rfl⟩ := cos0_sound h20 (by simp)
  obtain ⟨l5, u6, h23, h24⟩ := terminated_inv h3
  obtain ⟨w₁, hw₁, rfl⟩ := cos0_sound h24 (by simp)
  obtain ⟨hid, rfl, -⟩ := ident_inv h23
  obtain ⟨dc, hdc, rfl⟩ := docComment_sound _ _ _ h1 (by simp)
  have e : printMethod ⟨id, q₁, q₂, m, d⟩ ++ r' = printDoc d ++ (id ++ '(' :: (printQ q₁ ++ ')' :: ':' :: (printQ q₂ ++
    (printMeta m ++ ';' :: r')))) := by simp [printMethod]
  dsimp only
  rw [e]
  have n1 : Follow (printMeta m ++ ';' :: r') := (printMeta_next m (l := c!"(;") ';' _).follow
  have n2 : Follow (w₆ ++ (mt ++ (w₇ ++ ';' :: r))) := Follow.skip hw₆ (metaText_follow hm (Follow.trivia hw₇ ';'))
  have p₁ := printQ_text ht₁.ok
  have p₂ := printQ_text ht₂.ok
  refine ⟨?_, ?_⟩
  · exact map_eq (a := (d, id, q₁, q₂, m)) (pair_eq
      (docComment_eq (printDoc_text hdc.ok) (hid.tok _)) (pair_eq (terminated_eq
        (ident_eq hid (Follow.mk '(' _).delim.stops) (cos0_solid (solid_punct _ _)))
        (pair_eq (delimited_eq (char_eq _ _) (delimited_eq (cos0_solid (qident_tok p₁ _).solid)
          (qualifiedIdent_eq p₁ (Follow.mk ')' _)) (cos0_solid (solid_punct _ _))) (char_eq _ _))
        (preceded_eq (delimited_eq (cos0_solid (solid_punct _ _)) (char_eq _ _)
          (cos0_solid (qident_tok p₂ _).solid))
          (terminated_eq (pair_eq (qualifiedIdent_eq p₂ n1) (preceded_eq (cos0_solid (printMeta_solid m ';' _)) m1))
            (terminated_eq (cos0_solid (solid_punct _ _)) (char_eq _ _)))))))
  · refine doc_W hdc (W.text id (Follow.trivia hw₁ '(').stop (stop_punct '(' _) ?_)
    refine (W.punct '(' ((q_W ht₁ (Follow.trivia hw₃ ')').stop (stop_punct ')' _) ?_).trivia hw₂)).trivia hw₁
    refine (W.punct ')' ((W.punct ':' ?_).trivia hw₄)).trivia hw₃
    exact (q_W ht₂ n2.stop n1.stop (m2.trivia hw₆)).trivia hw₅

theorem method_printed (hx : HexfPrefix) (i r : Str) (f : RpcMethod) (h : rpcMethod i = some (r, f)) (r' : Str) :
    Solid (printMethod f ++ r') := by
  obtain ⟨t, ht, -⟩ := rpcMethod_sound hx _ _ _ h
  exact method_solid (printMethod_text ht.ok) r'

theorem again_rpc (hx : HexfPrefix) : Again rpcDecl printRpc (fun _ => True) := by
  intro i r e h r' _ _ hw
  obtain ⟨⟨d, id, ms⟩, g, rfl⟩ := map_inv h
  obtain ⟨j, h1, h2⟩ := pair_inv g
  obtain ⟨j1, h3, h4⟩ := pair_inv h2
  dsimp only at h1 h3 h4
  obtain ⟨k1, k2, c1, c2, h5, h6, h7⟩ := delimited_inv h4
  have := char_inv h5
  subst this
  have := char_inv h7
  subst this
  have hm : ms ≠ [] ∧ many0 (delimited cos0 rpcMethod cos0) k1 = some ('}' :: r, ms) := by
    rw [many0_eq (spaced_strict rpcMethod_strict).consumes]
    unfold many1 at h6
    cases e : delimited cos0 rpcMethod cos0 k1 with
    | none => rw [e] at h6; cases h6
    | some x =>
      rw [e] at h6
      dsimp only at h6
      refine ⟨?_, ?_⟩
      · obtain ⟨as, -, rfl⟩ := push_some h6
        simp
      · have hs := (spaced_strict rpcMethod_strict).ne e
        dsimp only
        rw [if_neg (fun h => by rw [h] at hs; exact lt_irrefl _ hs)]
        exact h6
  obtain ⟨hne, hm⟩ := hm
  have hs : Solid ('}' :: r') := solid_punct _ _
  obtain ⟨f1, f2, -⟩ := many0_again rpcMethod_strict (again_method hx) rpcMethod_nil (method_printed hx)
    (r' := '}' :: r') (W.punct '}' hw) (delimited_none_mid (cos0_solid hs) (rpcMethod_brace r'))
    (cos0_solid hs) _ k1 ms le_rfl hm
  have f1' := many1_of_many0 (spaced_strict rpcMethod_strict).consumes f1 hne
  obtain ⟨k3, a, h8, h9⟩ := preceded_inv h3
  obtain ⟨k4, u4, h10, h11⟩ := terminated_inv h9
  obtain ⟨w₂, hw₂, rfl⟩ := cos0_sound h11 (by simp)
  obtain ⟨hid, rfl, -⟩ := ident_inv h10
  obtain ⟨k5, u5, h12, h13⟩ := terminated_inv h8
  obtain ⟨w₁, hw₁, hne₁, rfl⟩ := cos1_sound h13 (by simp)
  have := tag_inv h12
  subst this
  obtain ⟨dc, hdc, rfl⟩ := docComment_sound _ _ _ h1 (by simp)
  have e : printRpc ⟨id, ms, d⟩ ++ r' = printDoc d ++ (c!"rpc_service" ++ ([' '] ++ (id ++ '{' ::
    (ms.flatMap printMethod ++ '}' :: r')))) := by simp [printRpc]
  dsimp only
  rw [e]
  have hsp := word_ascii' ' '
  refine ⟨?_, ?_⟩
  · exact map_eq (a := (d, id, ms)) (pair_eq (docComment_eq (printDoc_text hdc.ok)
      ((tok_cons 'r' c!"pc_service").append _))
      (pair_eq (preceded_eq (terminated_eq (tag_eq _ _) (cos1_skip space_trivia (by simp) (hid.tok _).solid))
        (terminated_eq (ident_eq hid (Follow.mk '{' _).delim.stops) (cos0_solid (solid_punct _ _))))
        (delimited_eq (char_eq _ _) f1' (char_eq _ _))))
  · refine doc_W hdc (W.text c!"rpc_service" (stop_trivia hw₁ hne₁) (stop_cons _ hsp) ?_)
    exact W.insert hsp ((W.text id (Follow.trivia hw₂ '{').stop (stop_punct '{' _)
      ((W.punct '{' f2).trivia hw₂)).trivia hw₁)

/-! ### Values -/

/-- A named value. -/
def printPair : Ident × Value → Str
  | (k, v) => k ++ ':' :: printValue v

omit [Env] in
theorem printValues_join : ∀ l : List Value, printValues l = joinWith ',' (l.map printValue)
  | [] => rfl
  | [v] => by rw [printValues]; simp [joinWith]
  | v :: w :: l => by
    rw [printValues, printValues_join (w :: l)]
    simp [joinWith]

omit [Env] in
theorem printPairs_join : ∀ l : List (Ident × Value), printPairs l = joinWith ',' (l.map printPair)
  | [] => rfl
  | [(k, v)] => by rw [printPairs]; simp [joinWith, printPair]
  | (k, v) :: w :: l => by
    rw [printPairs, printPairs_join (w :: l)]
    simp [joinWith, printPair]

theorem again_pair {v : P Value} (hs : Sound v ValueText) (ha : Again v printValue (Next c!",}]")) :
    Again (separatedPair ident (delimited cos0 (char ':') cos0) v) printPair (Next c!",}]") := by
  intro i r a h r' hr hr' hw
  obtain ⟨k, b⟩ := a
  obtain ⟨j, h1, h2⟩ := pair_inv h
  obtain ⟨j2, c, h3, h4⟩ := preceded_inv h2
  dsimp only at h1 h4
  obtain ⟨g1, g2⟩ := ha _ _ _ h4 r' hr hr' hw
  obtain ⟨t, ht, rfl⟩ := hs _ _ _ h4 hr.follow.ne
  obtain ⟨w₁, w₂, hw₁, hw₂, rfl⟩ := sepChar_inv _ _ _ _ h3 (append_ne hr.follow.ne)
  obtain ⟨hk, rfl, -⟩ := ident_inv h1
  have e : printPair (k, b) ++ r' = k ++ ':' :: (printValue b ++ r') := by simp [printPair]
  rw [e]
  exact ⟨pair_eq (ident_eq hk (Follow.mk ':' _).delim.stops) (preceded_eq (delimited_eq (cos0_solid (solid_punct _ _))
    (char_eq _ _) (cos0_solid (value_solid (printValue_text ht.ok) _))) g1),
    W.text k (Follow.trivia hw₁ ':').stop (stop_punct ':' _) ((W.punct ':' (g2.trivia hw₂)).trivia hw₁)⟩

theorem again_objectOf {v : P Value} (hv : Strict v) (hs : Sound v ValueText)
    (ha : Again v printValue (Next c!",}]")) : Again (objectOf v) (fun x => printObject x.2 x.1) (fun _ => True) := by
  intro i r x h r' _ _ hw
  obtain ⟨d, l⟩ := x
  obtain ⟨j, h1, h2⟩ := pair_inv h
  obtain ⟨j1, k, a, c, h3, h4, h5⟩ := delimited_inv h2
  dsimp only at h1 h4
  obtain ⟨k1, u, h6, h7⟩ := preceded_inv h5
  have := char_inv h7
  subst this
  obtain ⟨w₂, hw₂, rfl⟩ := cos0_sound h6 (by simp)
  obtain ⟨k2, u2, h8, h9⟩ := terminated_inv h3
  have := char_inv h8
  subst this
  have hb : Solid ('}' :: r') := solid_punct _ _
  obtain ⟨g1, g2, g3⟩ := sepList0_again
    (pair_strict_left ident_strict (preceded_consumes (sep_strict _).consumes hv.consumes)) (again_pair hs ha)
    (fun w t hw => Next.mk _ hw ',' t)
    (fun i r a h _ r' => by
      obtain ⟨k, b⟩ := a
      obtain ⟨j, h1, -⟩ := pair_inv h
      have e : printPair (k, b) ++ r' = k ++ ':' :: (printValue b ++ r') := by simp [printPair]
      rw [e]
      exact ((ident_inv h1).1.tok _).solid)
    (Next.mk _ hw₂ '}' r) (Next.mk _ (w := []) .nil '}' r') ((W.punct '}' hw).trivia hw₂)
    (comma_none (l := c!"}") (Next.mk _ (w := []) .nil '}' r')) h4
    (fun _ _ => pair_none_left (ident_none (identStart_punct _))) hb
  obtain ⟨dc, hdc, rfl⟩ := docComment_sound _ _ _ h1 (by simp)
  have e : printObject l d ++ r' = printDoc d ++ '{' :: (joinWith ',' (l.map printPair) ++ '}' :: r') := by
    simp [printObject, printPairs_join]
  show objectOf v (printObject l d ++ r') = _ ∧ W _ (printObject l d ++ r')
  rw [e]
  exact ⟨pair_eq (docComment_eq (printDoc_text hdc.ok) (tok_cons _ _)) (delimited_eq (terminated_eq (char_eq _ _)
    (cos0_solid g3)) g1 (preceded_eq (cos0_solid hb) (char_eq _ _))), doc_W hdc (W.punct '{' (cos0_W h9 g2))⟩

theorem again_valueListOf {v : P Value} (hv : Strict v) (hs : Sound v ValueText)
    (ha : Again v printValue (Next c!",}]"))
    (hb : ∀ i r', v i = none → W i (']' :: r') → v (']' :: r') = none) :
    Again (valueListOf v) (fun l => '[' :: (printValues l ++ [']'])) (fun _ => True) := by
  intro i r l h r' _ _ hw
  obtain ⟨j1, k, a, c, h3, h4, h5⟩ := delimited_inv h
  obtain ⟨k1, u, h6, h7⟩ := preceded_inv h5
  have := char_inv h7
  subst this
  obtain ⟨w₂, hw₂, rfl⟩ := cos0_sound h6 (by simp)
  obtain ⟨k2, u2, h8, h9⟩ := terminated_inv h3
  have := char_inv h8
  subst this
  have hsb : Solid (']' :: r') := solid_punct _ _
  obtain ⟨g1, g2, g3⟩ := sepList0_again hv ha
    (fun w t hw => Next.mk _ hw ',' t)
    (fun i r a h hr r' => by
      obtain ⟨t, ht, -⟩ := hs _ _ _ h hr.follow.ne
      exact value_solid (printValue_text ht.ok) _)
    (Next.mk _ hw₂ ']' r) (Next.mk _ (w := []) .nil ']' r') ((W.punct ']' hw).trivia hw₂)
    (comma_none (l := c!"]") (Next.mk _ (w := []) .nil ']' r')) h4
    (fun h1 h2 => hb _ _ h1 h2) hsb
  have e : '[' :: (printValues l ++ [']']) ++ r' = '[' :: (joinWith ',' (l.map printValue) ++ ']' :: r') := by
    simp [printValues_join]
  show valueListOf v ('[' :: (printValues l ++ [']']) ++ r') = _ ∧ W _ ('[' :: (printValues l ++ [']']) ++ r')
  rw [e]
  exact ⟨delimited_eq (terminated_eq (char_eq _ _)
    (cos0_solid g3)) g1 (preceded_eq (cos0_solid hsb) (char_eq _ _)), W.punct '[' (cos0_W h9 g2)⟩

theorem objectOf_none {v : P Value} {c : Char} (r : Str) (h : c ∈ c!"[]") : objectOf v (c :: r) = none := by
  have hc : ∀ c ∈ c!"[]", c ≠ '/' ∧ isSpace c = false ∧ c ≠ '{' := by decide
  obtain ⟨h1, h2, h3⟩ := hc c h
  exact pair_none_right (docComment_punct c r h1 h2) (delimited_none_left (terminated_none_left (char_none h3)))

theorem valueGo_brace : ∀ (n : Nat) (i r' : Str), valueGo n i = none → W i (']' :: r') → valueGo n (']' :: r') = none
  | 0, _, _, _, _ => rfl
  | n + 1, i, r', h, hw => by
    unfold valueGo at h ⊢
    have hq := hw.special (single_clean_none (map_none_inv (alt_none_inv h).1))
    have h1 : single (']' :: r') = none := by
      unfold single
      rw [alt_right (map_none (scalar_none (by decide) (by decide) (by decide) (by decide) ?_ ?_ hq))]
      · exact map_none (map_none (delimited_none_left (char_none (by decide))))
      · intro h; exact absurd (List.cons_prefix_cons.mp h).1 (by decide)
      · intro h; exact absurd (List.cons_prefix_cons.mp h).1 (by decide)
    rw [alt_right (map_none h1), alt_right (map_none (objectOf_none r' (by decide)))]
    exact map_none (delimited_none_left (terminated_none_left (char_none (by decide))))

theorem again_valueGo (hx : HexfPrefix) : ∀ n, Again (valueGo n) printValue (Next c!",}]")
  | 0 => fun _ _ _ h => by cases h
  | n + 1 => by
    intro i r v h r' hr hr' hw
    have hst := valueGo_strict n
    have hso := valueGo_sound hx n
    have ih := again_valueGo hx n
    unfold valueGo at h ⊢
    rcases alt_inv h with h | ⟨hn, h⟩
    · obtain ⟨s, g, rfl⟩ := map_inv h
      obtain ⟨g1, g2⟩ := again_single hx _ _ _ g r' hr.follow hr'.follow hw
      rw [printValue]
      exact ⟨alt_left (map_eq g1), g2⟩
    · have hq := single_clean_none (map_none_inv hn)
      rcases alt_inv h with h | ⟨hn', h⟩
      · obtain ⟨⟨d, l⟩, g, rfl⟩ := map_inv h
        obtain ⟨g1, g2⟩ := again_objectOf hst hso ih _ _ _ g r' trivial trivial hw
        dsimp only at g1 g2 ⊢
        have e : printValue (.object l d) = printObject l d := by rw [printValue, printObject]
        rw [e]
        refine ⟨?_, g2⟩
        have hh := g2.special hq
        have e : printObject l d ++ r' = printDoc d ++ '{' :: (printPairs l ++ '}' :: r') := by simp [printObject]
        obtain ⟨t, ht, -⟩ := objectOf_sound hst.consumes hso g
        obtain ⟨x, u, e', hx⟩ := docText_head (printDoc_text ht.ok.1) '{' (printPairs l ++ '}' :: r')
        rw [e, e'] at hh g1 ⊢
        rw [alt_right (map_none (single_none (by rcases hx with rfl | rfl <;> decide) hh))]
        exact alt_left (map_eq g1)
      · obtain ⟨l, g, rfl⟩ := map_inv h
        obtain ⟨g1, g2⟩ := again_valueListOf hst hso ih (valueGo_brace n) _ _ _ g r' trivial trivial hw
        have e : printValue (.list l) = '[' :: (printValues l ++ [']']) := by rw [printValue]
        rw [e]
        refine ⟨?_, g2⟩
        have hh := g2.special hq
        have e' : '[' :: (printValues l ++ [']']) ++ r' = '[' :: (printValues l ++ ']' :: r') := by simp
        dsimp only at g1
        rw [e'] at hh g1 ⊢
        rw [alt_right (map_none (single_none (by decide) hh)), alt_right (map_none (objectOf_none _ (by decide)))]
        exact map_eq g1

theorem again_value (hx : HexfPrefix) : Again value_ printValue (Next c!",}]") := by
  intro i r v h r' hr hr' hw
  have key : ∀ t : Str, ∀ N, t.length < N → value_ t = valueGo N t :=
    fun t N hN => valueGo_agree t.length _ _ (by omega) hN t le_rfl
  rw [key i (i.length + (printValue v ++ r').length + 1) (by omega)] at h
  rw [key (printValue v ++ r') (i.length + (printValue v ++ r').length + 1) (by omega)]
  exact again_valueGo hx _ _ _ _ h r' hr hr' hw

theorem again_object (hx : HexfPrefix) : Again object (fun x => printObject x.2 x.1) (fun _ => True) :=
  again_objectOf value__strict (value_sound hx) (again_value hx)

/-! ### Declarations and schemas -/

theorem string_stop {x s : Str} (h : StringText x s) (r : Str) : Stop (s ++ r) := by
  obtain ⟨-, rfl⟩ := h
  exact stop_cons _ (word_ascii' '"')

omit [Env] in
theorem ascii_byte {c : Char} (h : c.toNat < 128) : Char.ofNat (UInt8.ofNat c.toNat).toNat = c := by
  rw [UInt8.toNat_ofNat', Nat.mod_eq_of_lt (by omega), Char.ofNat_toNat]

/-- The words in declarations without values. -/
theorem element_W {e : Element} {t : Str} (h : ElementText e t) {r r' : Str} (hw : W r r') :
    Picked t r e ∧ (∀ p, e ≠ .table p) ∧ (∀ p, e ≠ .struct p) ∧ (∀ p, e ≠ .enum p) ∧ (∀ p, e ≠ .union p) ∧
      (∀ p, e ≠ .rpc p) ∧ (∀ l d, e ≠ .object l d) → W (t ++ r) (printElement e ++ r') := by
  rintro ⟨-, n1, n2, n3, n4, n5, n6⟩
  cases h with
  | «namespace» hi h => exact keyword_W h _ (.inl rfl) (fun _ _ a b c => q_W hi a b c) (fun _ h => by cases h) hw
  | table h => exact absurd rfl (n1 _)
  | struct h => exact absurd rfl (n2 _)
  | enum h => exact absurd rfl (n3 _)
  | union h => exact absurd rfl (n4 _)
  | root hi h => exact keyword_W h _ (.inr rfl) (fun _ _ a b c => W.text _ a b c) (fun _ h => by cases h) hw
  | fileExtension hi h =>
    exact keyword_W h _ (.inl rfl) (fun _ _ _ _ c => string_W hi c) (fun r _ => string_stop hi r) hw
  | @fileIdentifier c₁ c₂ c₃ c₄ d t hc h =>
    refine keyword_W h _ (.inl rfl) (fun _ _ a b c => ?_) (fun r _ => stop_cons _ (word_ascii' '"')) hw
    have e : printString (([c₁, c₂, c₃, c₄].map fun c => UInt8.ofNat c.toNat).map fun x => Char.ofNat x.toNat) =
        ['"', c₁, c₂, c₃, c₄, '"'] := by
      simp only [List.map_cons, List.map_nil, ascii_byte (hc c₁ (by simp)), ascii_byte (hc c₂ (by simp)),
        ascii_byte (hc c₃ (by simp)), ascii_byte (hc c₄ (by simp))]
      rfl
    rw [e]
    exact W.text _ a b c
  | @«attribute» i d s t hi h =>
    refine keyword_W h _ (.inr rfl) (fun r r' a b c => ?_) (fun _ h => by cases h) hw
    rcases hi with ⟨-, rfl⟩ | hi
    · have hq := word_ascii' '"'
      have e : printString s ++ r' = '"' :: (s ++ '"' :: r') := by simp [printString]
      rw [e]
      exact W.insert hq (W.text s a (stop_cons _ hq) (W.insert hq c))
    · exact string_W hi c
  | rpc h => exact absurd rfl (n5 _)
  | object h => exact absurd rfl (n6 _ _)

theorem again_element (hx : HexfPrefix) : Again element printElement (fun _ => True) := by
  intro i r e h r' _ _ hw
  obtain ⟨t, ht, he⟩ := element_sound hx _ _ _ h
  have hp := printElement_text ht.ok
  have plain : (∀ p, e ≠ .table p) ∧ (∀ p, e ≠ .struct p) ∧ (∀ p, e ≠ .enum p) ∧ (∀ p, e ≠ .union p) ∧
      (∀ p, e ≠ .rpc p) ∧ (∀ l d, e ≠ .object l d) →
      element (printElement e ++ r') = some (r', e) ∧ W i (printElement e ++ r') := by
    intro hn
    subst he
    refine ⟨element_pick hp ?_, element_W ht hw ?_⟩
    · cases e <;> first
        | exact trivial
        | exact absurd rfl (hn.1 _)
        | exact absurd rfl (hn.2.1 _)
        | exact absurd rfl (hn.2.2.1 _)
        | exact absurd rfl (hn.2.2.2.1 _)
        | exact absurd rfl (hn.2.2.2.2.1 _)
        | exact absurd rfl (hn.2.2.2.2.2 _ _)
    · refine ⟨?_, hn⟩
      cases e <;> first
        | exact trivial
        | exact absurd rfl (hn.1 _)
        | exact absurd rfl (hn.2.1 _)
        | exact absurd rfl (hn.2.2.1 _)
        | exact absurd rfl (hn.2.2.2.1 _)
        | exact absurd rfl (hn.2.2.2.2.1 _)
        | exact absurd rfl (hn.2.2.2.2.2 _ _)
  rcases alt_inv h with h | ⟨-, h⟩
  · obtain ⟨x, g, rfl⟩ := map_inv h
    exact plain (by refine ⟨?_, ?_, ?_, ?_, ?_, ?_⟩ <;> intros <;> simp)
  rcases alt_inv h with h | ⟨-, h⟩
  · obtain ⟨x, g, rfl⟩ := map_inv h
    obtain ⟨g1, g2⟩ := again_product hx (tok_cons _ _) _ _ _ g r' trivial trivial hw
    exact ⟨element_pick hp g1, g2⟩
  rcases alt_inv h with h | ⟨-, h⟩
  · obtain ⟨x, g, rfl⟩ := map_inv h
    obtain ⟨g1, g2⟩ := again_product hx (tok_cons _ _) _ _ _ g r' trivial trivial hw
    exact ⟨element_pick hp g1, g2⟩
  rcases alt_inv h with h | ⟨-, h⟩
  · obtain ⟨x, g, rfl⟩ := map_inv h
    obtain ⟨g1, g2⟩ := again_enum hx _ _ _ g r' trivial trivial hw
    exact ⟨element_pick hp g1, g2⟩
  rcases alt_inv h with h | ⟨-, h⟩
  · obtain ⟨x, g, rfl⟩ := map_inv h
    obtain ⟨g1, g2⟩ := again_union hx _ _ _ g r' trivial trivial hw
    exact ⟨element_pick hp g1, g2⟩
  rcases alt_inv h with h | ⟨-, h⟩
  · obtain ⟨x, g, rfl⟩ := map_inv h
    exact plain (by refine ⟨?_, ?_, ?_, ?_, ?_, ?_⟩ <;> intros <;> simp)
  rcases alt_inv h with h | ⟨-, h⟩
  · obtain ⟨x, g, rfl⟩ := map_inv h
    exact plain (by refine ⟨?_, ?_, ?_, ?_, ?_, ?_⟩ <;> intros <;> simp)
  rcases alt_inv h with h | ⟨-, h⟩
  · obtain ⟨x, g, rfl⟩ := map_inv h
    exact plain (by refine ⟨?_, ?_, ?_, ?_, ?_, ?_⟩ <;> intros <;> simp)
  rcases alt_inv h with h | ⟨-, h⟩
  · obtain ⟨x, g, rfl⟩ := map_inv h
    exact plain (by refine ⟨?_, ?_, ?_, ?_, ?_, ?_⟩ <;> intros <;> simp)
  rcases alt_inv h with h | ⟨-, h⟩
  · obtain ⟨x, g, rfl⟩ := map_inv h
    obtain ⟨g1, g2⟩ := again_rpc hx _ _ _ g r' trivial trivial hw
    exact ⟨element_pick hp g1, g2⟩
  · obtain ⟨x, g, rfl⟩ := map_inv h
    obtain ⟨g1, g2⟩ := again_object hx _ _ _ g r' trivial trivial hw
    exact ⟨element_pick hp g1, g2⟩

theorem element_printed (hx : HexfPrefix) (i r : Str) (e : Element) (h : element i = some (r, e)) (r' : Str) :
    Solid (printElement e ++ r') := by
  obtain ⟨t, ht, -⟩ := element_sound hx _ _ _ h
  exact element_solid (printElement_text ht.ok) r'

theorem again_include : Again includeDecl printInclude (fun _ => True) := by
  intro i r a h r' _ _ hw
  obtain ⟨t, ht, rfl⟩ := includeDecl_sound _ _ _ h
  refine ⟨includeDecl_eq (printInclude_text ht.ok), ?_⟩
  cases ht with
  | mk hs hst hk => exact keyword_W hk _ (.inl rfl) (fun _ _ _ _ c => string_W hs c) (fun _ h => by cases h) hw

/-- What is printed for an accepted schema is accepted, as the same schema. -/
theorem again_schema (hx : HexfPrefix) {i : Str} {s : Schema} (h : schemaDecl i = some ([], s)) :
    schemaDecl (printSchema s) = some ([], s) := by
  obtain ⟨⟨is, es⟩, g, rfl⟩ := map_inv h
  obtain ⟨j, h1, h2⟩ := pair_inv g
  dsimp only at h1 h2
  obtain ⟨e1, e2, e3⟩ := many0_again element_strict (again_element hx) element_nil (element_printed hx)
    (r' := []) (W.refl []) (spaced_nil element_nil) rfl _ j es le_rfl h2
  have hend : delimited cos0 includeDecl cos0 (es.flatMap printElement ++ []) = none := by
    cases es with
    | nil => exact spaced_nil includeDecl_nil
    | cons e es =>
      refine delimited_none_mid e3 ?_
      have hok := (schemaDecl_sound hx h).ok.2 e List.mem_cons_self
      obtain ⟨kw, hk, hh⟩ := element_headed (printElement_text hok)
      have e : (e :: es).flatMap printElement ++ [] = printElement e ++ es.flatMap printElement := by simp
      rw [e]
      exact (hh.append _).include_none (keywords_tok hk) (keywords_include hk).1 (keywords_include hk).2
  obtain ⟨i1, -, -⟩ := many0_again includeDecl_strict again_include includeDecl_nil
    (fun i r a h r' => by
      obtain ⟨t, ht, -⟩ := includeDecl_sound _ _ _ h
      exact include_solid (printInclude_text ht.ok) r')
    (r' := es.flatMap printElement ++ []) e2 hend e3 _ i is le_rfl h1
  have e : printSchema ⟨is, es⟩ = is.flatMap printInclude ++ (es.flatMap printElement ++ []) := by simp [printSchema]
  rw [e]
  exact map_eq (a := (is, es)) (pair_eq i1 e1)

end Butte.Parse
