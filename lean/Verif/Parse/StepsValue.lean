import Verif.Parse.StepsNested
/-
How many steps the values of objects take.
-/
namespace Butte.Parse.Timed

open Ast

variable {α β γ : Type}

theorem cos0_stays {i : Str} (h : Parse.commentOrSpace i = none) : Parse.cos0 i = some (i, ()) := by
  simp only [Parse.cos0, Parse.value, Parse.map, Parse.many0, Parse.manyGo, h]

theorem tag_none_of {t i : Str} (h : t.isPrefixOf i = false) : Parse.tag t i = none := by
  unfold Parse.tag; rw [if_neg (by rw [h]; simp)]

theorem comment_none {c : Char} {x : Str} (h : c ≠ '/') : Parse.comment (c :: x) = none := by
  have : Parse.tag c!"//" (c :: x) = none := tag_none_of (by
    simp only [List.isPrefixOf, Bool.and_eq_false_iff, beq_eq_false_iff_ne]
    exact .inl (Ne.symm h))
  simp only [Parse.comment, Parse.value, Parse.map, Parse.pair, this]

theorem space_none {c : Char} {x : Str} (h : isSpace c = false) : Parse.multispace1 (c :: x) = none := by
  simp only [Parse.multispace1, Parse.takeWhile1, List.takeWhile_cons, h]
  rfl

theorem cos_none {c : Char} {x : Str} (h1 : isSpace c = false) (h2 : c ≠ '/') : Parse.commentOrSpace (c :: x) = none := by
  simp only [Parse.commentOrSpace, Parse.alt, comment_none h2, Parse.value, Parse.map, space_none h1]

theorem cos_none_doc (x : Str) : Parse.commentOrSpace ('/' :: '/' :: '/' :: x) = none := by
  have h1 : Parse.tag c!"//" ('/' :: '/' :: '/' :: x) = some ('/' :: x, c!"//") := rfl
  have h2 : Parse.tag c!"/" ('/' :: x) = some (x, c!"/") := rfl
  have h3 : Parse.multispace1 ('/' :: '/' :: '/' :: x) = none := space_none (by decide)
  simp only [Parse.commentOrSpace, Parse.alt, Parse.comment, Parse.value, Parse.map, Parse.pair, Parse.pnot, h1, h2, h3]

theorem close_none {c cl : Char} {i x : Str} (he : i = c :: x) (h : Parse.commentOrSpace i = none) (hc : c ≠ cl) :
    Parse.preceded Parse.cos0 (Parse.char cl) i = none := by
  have : Parse.char cl i = none := by
    rw [he]; simp only [Parse.char, Parse.satisfy, beq_iff_eq, hc, if_false]
  simp only [Parse.preceded, Parse.map, Parse.pair, cos0_stays h, this]

theorem doc_stays {i : Str} (h : c!"///".isPrefixOf i = false) : Parse.docComment i = some (i, []) := by
  simp only [Parse.docComment, Parse.many0, Parse.manyGo, Parse.terminated, Parse.rawDocComment, Parse.preceded, Parse.map,
    Parse.pair, tag_none_of h]

/-- After a separator there is no closing bracket. -/
theorem sep_stuck {c cl : Char} (hne : c ≠ cl) {i : Str} (h : Parse.delimited Parse.cos0 (Parse.char c) Parse.cos0 i ≠ none) :
    Parse.preceded Parse.cos0 (Parse.char cl) i = none := by
  cases e : Parse.cos0 i with
  | none => simp only [Parse.preceded, Parse.map, Parse.pair, e]
  | some x =>
    obtain ⟨r, u⟩ := x
    rw [delimited_eq e] at h
    have hc : Parse.char cl r = none := by
      cases r with
      | nil => rfl
      | cons d r =>
        have hd : d = c := by
          by_contra hd
          apply h
          have : Parse.char c (d :: r) = none := by simp only [Parse.char, Parse.satisfy, beq_iff_eq, hd, if_false]
          rw [this]
        simp only [Parse.char, Parse.satisfy, beq_iff_eq, hd, hne, if_false]
    simp only [Parse.preceded, Parse.map, Parse.pair, e, hc]

variable [Env]

theorem start_not {c : Char} (h : identStart c = true) : isSpace c = false ∧ c ≠ '/' ∧ c ≠ '}' := by
  have key : ∀ d : Char, d.toNat < 128 → d.isAlpha = false → d ≠ '_' → c ≠ d := by
    rintro d h1 h2 h3 rfl
    simp only [identStart, Bool.or_eq_true, beq_iff_eq, h3, or_false, Env.alphabetic_ascii c h1, h2] at h
    cases h
  refine ⟨?_, key _ (by decide) (by decide) (by decide), key _ (by decide) (by decide) (by decide)⟩
  have h1 := key ' ' (by decide) (by decide) (by decide)
  have h2 := key '\t' (by decide) (by decide) (by decide)
  have h3 := key '\r' (by decide) (by decide) (by decide)
  have h4 := key '\n' (by decide) (by decide) (by decide)
  simp only [isSpace, Bool.or_eq_false_iff, beq_eq_false_iff_ne]
  exact ⟨⟨⟨h1, h2⟩, h3⟩, h4⟩

theorem ident_stuck {i : Str} (h : Parse.ident i ≠ none) : Parse.preceded Parse.cos0 (Parse.char '}') i = none := by
  cases i with
  | nil => rfl
  | cons c x =>
    have hc : identStart c = true := by
      by_contra hc
      apply h
      have : Parse.satisfy identStart (c :: x) = none := by simp only [Parse.satisfy, hc]; rfl
      simp only [Parse.ident, Parse.recognize, Parse.preceded, Parse.map, Parse.pair, this]
    obtain ⟨h1, h2, h3⟩ := start_not hc
    exact close_none rfl (cos_none h1 h2) h3

theorem objectOf_gives {c : CP Value} {p : P Value} (h : Gives c p) : Gives (objectOf c) (Parse.objectOf p) :=
  pair_gives docComment_meets.val (delimited_gives (terminated_gives (char_meets _).val cos0_meets.val)
    (sepList0_gives (delimited_gives cos0_meets.val (char_meets _).val cos0_meets.val)
      (separatedPair_gives ident_meets.val (delimited_gives cos0_meets.val (char_meets _).val cos0_meets.val) h))
    (preceded_gives cos0_meets.val (char_meets _).val))

omit [Env] in
theorem valueListOf_gives {c : CP Value} {p : P Value} (h : Gives c p) : Gives (valueListOf c) (Parse.valueListOf p) :=
  delimited_gives (terminated_gives (char_meets _).val cos0_meets.val)
    (sepList0_gives (delimited_gives cos0_meets.val (char_meets _).val cos0_meets.val) h)
    (preceded_gives cos0_meets.val (char_meets _).val)

theorem valueGo_gives : ∀ n, Gives (valueGo n) (Parse.valueGo n)
  | 0 => fun _ => rfl
  | n + 1 => alt_gives (map_gives single_meets.val _) (alt_gives (map_gives (objectOf_gives (valueGo_gives n)) _)
      (map_gives (valueListOf_gives (valueGo_gives n)) _))

theorem valueGo_reads : ∀ n, Reads (valueGo n)
  | 0 => fun _ _ _ e => by cases e
  | n + 1 => by
    have sep : ∀ c, Reads (delimited cos0 (char c) cos0) := fun c =>
      delimited_reads cos0_meets.reads (char_meets c).reads cos0_meets.reads
    have v := valueGo_reads n
    exact alt_reads (map_reads single_meets.reads _) (alt_reads
      (map_reads (pair_reads docComment_meets.reads (delimited_reads (terminated_reads (char_meets _).reads cos0_meets.reads)
        (sepList0_reads (sep _) (separatedPair_reads ident_meets.reads (sep _) v))
        (preceded_reads cos0_meets.reads (char_meets _).reads))) _)
      (map_reads (delimited_reads (terminated_reads (char_meets _).reads cos0_meets.reads) (sepList0_reads (sep _) v)
        (preceded_reads cos0_meets.reads (char_meets _).reads)) _))

omit [Env] in
def sep_meets (c : Char) : Meets 2 (delimited cos0 (char c) cos0) (Parse.delimited Parse.cos0 (Parse.char c) Parse.cos0) :=
  delimited_meets cos0_meets ((char_meets c).up 2) cos0_meets

/-- The parts of the rules for values that do not call them again. -/
def valueC : Nat :=
  (map_meets single_meets Value.single).C + docComment_meets.C + cos0_meets.C + (sep_meets ',').C + (sep_meets ':').C +
    ident_meets.C + 1

/-- What the parts take. -/
structure Parts (B N : Nat) : Prop where
  size : N + 1 ≤ B
  single : ∀ i : Str, i.length ≤ N → (map single Value.single i).steps ≤ B
  doc : ∀ i : Str, i.length ≤ N → (docComment i).steps ≤ B
  cos0 : ∀ i : Str, i.length ≤ N → (cos0 i).steps ≤ B
  comma : ∀ i : Str, i.length ≤ N → (delimited Timed.cos0 (char ',') Timed.cos0 i).steps ≤ B
  colon : ∀ i : Str, i.length ≤ N → (delimited Timed.cos0 (char ':') Timed.cos0 i).steps ≤ B
  ident : ∀ i : Str, i.length ≤ N → (ident i).steps ≤ B

theorem parts (N : Nat) : Parts (valueC * (N + 1) ^ 3) N := by
  have hX := @le_pow N 3 (by omega)
  have key : ∀ {k C x : Nat}, x ≤ C * (N + 1) ^ k → k ≤ 3 → C ≤ valueC → x ≤ valueC * (N + 1) ^ 3 := by
    intro k C x h h1 h2
    exact Nat.le_trans h (Nat.mul_le_mul h2 (Nat.pow_le_pow_right (Nat.succ_pos _) h1))
  refine ⟨?_, fun i hi => key ((map_meets single_meets Value.single).steps N i hi) (by omega) (by unfold valueC; omega),
    fun i hi => key (docComment_meets.steps N i hi) (by omega) (by unfold valueC; omega),
    fun i hi => key (cos0_meets.steps N i hi) (by omega) (by unfold valueC; omega),
    fun i hi => key ((sep_meets ',').steps N i hi) (by omega) (by unfold valueC; omega),
    fun i hi => key ((sep_meets ':').steps N i hi) (by omega) (by unfold valueC; omega),
    fun i hi => key (ident_meets.steps N i hi) (by omega) (by unfold valueC; omega)⟩
  exact Nat.le_trans hX (Nat.le_mul_of_pos_left _ (by unfold valueC; omega))

/-- A member of an object. -/
theorem member_paid {A B N : Nat} (hA : 24 * B ≤ A) (T : Parts B N) {c : CP Value} {p : P Value} (g : Gives c p) (hc : Consumes p)
    (bc : ∀ i : Str, i.length ≤ N → Paid A c i) (i : Str) (hi : i.length ≤ N) :
    Paid A (separatedPair ident (delimited cos0 (char ':') cos0) c) i ∧
    (Parse.ident i = none → (separatedPair ident (delimited cos0 (char ':') cos0) c i).steps ≤ 2 * B) := by
  have hB := T.size
  have b1 := T.ident i hi
  have gi := ident_meets.val i
  have gs := (sep_meets ':').val
  have gp := preceded_gives gs g
  have cp : Consumes (Parse.preceded (Parse.delimited Parse.cos0 (Parse.char ':') Parse.cos0) p) :=
    preceded_consumes (sep_strict ':').consumes hc
  have ev : (separatedPair ident (delimited cos0 (char ':') cos0) c i).val =
      Parse.separatedPair Parse.ident (Parse.delimited Parse.cos0 (Parse.char ':') Parse.cos0) p i :=
    separatedPair_gives ident_meets.val gs g i
  cases e : (ident i).val with
  | none =>
    have es := pair_steps_none e (preceded (delimited cos0 (char ':') cos0) c)
    change (separatedPair ident (delimited cos0 (char ':') cos0) c i).steps = _ at es
    rw [e] at gi
    refine ⟨⟨fun r a h => ?_, fun _ => by omega⟩, fun _ => by omega⟩
    rw [ev] at h
    simp only [Parse.separatedPair, Parse.pair, ← gi] at h
    cases h
  | some x =>
    obtain ⟨j, a0⟩ := x
    rw [e] at gi
    have hj := ident_strict.ne gi.symm
    have es := pair_steps_some e (preceded (delimited cos0 (char ':') cos0) c)
    change (separatedPair ident (delimited cos0 (char ':') cos0) c i).steps = _ at es
    have a1 := map_steps (pair_gives gs g) (pair_consumes (sep_strict ':').consumes hc) (fun x => x.2) j
    change (preceded (delimited cos0 (char ':') cos0) c j).steps ≤ _ at a1
    have b2 := T.colon j (by omega)
    have m1 := @mul_step A _ _ hj
    refine ⟨?_, fun h => by rw [← gi] at h; cases h⟩
    cases e2 : (delimited cos0 (char ':') cos0 j).val with
    | none =>
      rw [pair_steps_none e2] at a1
      refine ⟨fun r a h => ?_, fun _ => by omega⟩
      have e2' := (gs j).symm.trans e2
      rw [ev] at h
      simp only [Parse.separatedPair, Parse.pair, ← gi, Parse.preceded, Parse.map, e2'] at h
      cases h
    | some y =>
      obtain ⟨k, b⟩ := y
      have e2' := (gs j).symm.trans e2
      have hk := (sep_strict ':').ne e2'
      have m2 := @mul_step A _ _ hk
      rw [pair_steps_some e2] at a1
      have pc := bc k (by omega)
      cases e3 : (c k).val with
      | none =>
        have b3 := pc.bad e3
        refine ⟨fun r a h => ?_, fun _ => by omega⟩
        have e3' := (g k).symm.trans e3
        rw [ev] at h
        simp only [Parse.separatedPair, Parse.pair, ← gi, Parse.preceded, Parse.map, e2', e3'] at h
        cases h
      | some z =>
        obtain ⟨l, v⟩ := z
        have b3 := pc.ok _ _ e3
        have e3' := (g k).symm.trans e3
        have h' : Parse.separatedPair Parse.ident (Parse.delimited Parse.cos0 (Parse.char ':') Parse.cos0) p i = some (l, (a0, v)) := by
          simp only [Parse.separatedPair, Parse.pair, ← gi, Parse.preceded, Parse.map, e2', e3']
        refine ⟨fun r a h => ?_, fun h => by rw [ev, h'] at h; cases h⟩
        rw [ev, h'] at h
        cases h
        omega

omit [Env] in
theorem char_none {c d : Char} {x : Str} (h : d ≠ c) : Parse.char c (d :: x) = none := by
  simp only [Parse.char, Parse.satisfy, beq_iff_eq, h, if_false]

/-- An object, if the bracket is missing. -/
theorem objectOf_cheap {B N : Nat} (T : Parts B N) {c : CP Value} {p : P Value} (g : Gives c p) (hc : Consumes p) (i : Str)
    (hi : i.length ≤ N) (hd : Parse.docComment i = some (i, [])) (hch : Parse.char '{' i = none) :
    (map (objectOf c) (fun x => Value.object x.2 x.1) i).steps ≤ 10 * B ∧ Parse.objectOf p i = none := by
  have hB := T.size
  have a1 := map_steps (objectOf_gives g) (objectOf_strict hc).consumes (fun x => Value.object x.2 x.1) i
  have b1 := T.doc i hi
  have e : (docComment i).val = some (i, []) := (docComment_meets.val i).trans hd
  have gm := separatedPair_gives ident_meets.val (sep_meets ':').val g
  have hm : Consumes (Parse.separatedPair Parse.ident (Parse.delimited Parse.cos0 (Parse.char ':') Parse.cos0) p) :=
    pair_consumes ident_strict.consumes (preceded_consumes (sep_strict ':').consumes hc)
  obtain ⟨b2, v2⟩ := brackets_cheap hB '{' '}' (sep_meets ',').val gm (sep_strict ',') hm i hi hch
  have es := pair_steps_some e (brackets '{' (delimited cos0 (char ',') cos0)
    (separatedPair ident (delimited cos0 (char ':') cos0) c) '}')
  change (objectOf c i).steps = _ at es
  refine ⟨by omega, ?_⟩
  have ev := (delimited_gives (terminated_gives (char_meets '{').val cos0_meets.val) (sepList0_gives (sep_meets ',').val gm)
    (preceded_gives cos0_meets.val (char_meets '}').val) i).symm.trans v2
  simp only [Parse.objectOf, Parse.pair, hd, ev]

/-- A list, if the bracket is missing. -/
theorem listOf_cheap {B N : Nat} (T : Parts B N) {c : CP Value} {p : P Value} (g : Gives c p) (hc : Consumes p) (i : Str)
    (hi : i.length ≤ N) (hch : Parse.char '[' i = none) :
    (map (valueListOf c) Value.list i).steps ≤ 8 * B ∧ Parse.valueListOf p i = none := by
  have hB := T.size
  have a1 := map_steps (valueListOf_gives g) (valueListOf_strict hc).consumes Value.list i
  obtain ⟨b2, v2⟩ := brackets_cheap hB '[' ']' (sep_meets ',').val g (sep_strict ',') hc i hi hch
  change (valueListOf c i).steps ≤ _ at b2
  exact ⟨by omega, (valueListOf_gives g i).symm.trans v2⟩

theorem value_cheap {B N : Nat} (T : Parts B N) : ∀ n (i : Str), i.length ≤ N → Parse.valueGo n i = none →
    (valueGo n i).steps ≤ 21 * B ∨ Parse.preceded Parse.cos0 (Parse.char ']') i = none
  | 0, i, _, _ => .inl (by show 1 ≤ _; have := T.size; omega)
  | n + 1, i, hi, _ => by
    have hB := T.size
    have hc := (valueGo_strict n).consumes
    have plain : Parse.docComment i = some (i, []) → Parse.char '{' i = none → Parse.char '[' i = none →
        (valueGo (n + 1) i).steps ≤ 21 * B := by
      intro h1 h2 h3
      have b1 := T.single i hi
      have b2 := (objectOf_cheap T (valueGo_gives n) hc i hi h1 h2).1
      have b3 := (listOf_cheap T (valueGo_gives n) hc i hi h3).1
      have a1 := alt_steps (map single Value.single) (alt (map (objectOf (valueGo n)) (fun x => Value.object x.2 x.1))
        (map (valueListOf (valueGo n)) Value.list)) i
      have a2 := alt_steps (map (objectOf (valueGo n)) (fun x => Value.object x.2 x.1)) (map (valueListOf (valueGo n)) Value.list) i
      change (valueGo (n + 1) i).steps ≤ _ at a1
      omega
    cases i with
    | nil => exact .inl (plain rfl rfl rfl)
    | cons c x =>
      by_cases h1 : c = '['
      · subst h1; exact .inr (close_none rfl (cos_none (by decide) (by decide)) (by decide))
      · by_cases h2 : c = '{'
        · subst h2; exact .inr (close_none rfl (cos_none (by decide) (by decide)) (by decide))
        · cases h3 : c!"///".isPrefixOf (c :: x) with
          | true =>
            obtain ⟨y, hy⟩ := List.isPrefixOf_iff_prefix.mp h3
            right
            rw [← hy]
            exact close_none rfl (cos_none_doc y) (by decide)
          | false => exact .inl (plain (doc_stays h3) (char_none h2) (char_none h1))

theorem valueGo_paid {B N : Nat} (T : Parts B N) : ∀ n (i : Str), i.length ≤ N → Paid (600 * B) (valueGo n) i
  | 0, i, _ => ⟨fun _ _ h => (by cases h), fun _ => by show 1 ≤ _; have := T.size; omega⟩
  | n + 1, i, hi => by
    have hB := T.size
    have g := valueGo_gives n
    have hc := (valueGo_strict n).consumes
    have ih := valueGo_paid T n
    have a1 := alt_steps (map single Value.single) (alt (map (objectOf (valueGo n)) (fun x => Value.object x.2 x.1))
      (map (valueListOf (valueGo n)) Value.list)) i
    have a2 := alt_steps (map (objectOf (valueGo n)) (fun x => Value.object x.2 x.1)) (map (valueListOf (valueGo n)) Value.list) i
    change (valueGo (n + 1) i).steps ≤ _ at a1
    have b1 := T.single i hi
    have ev := valueGo_gives (n + 1) i
    have evl : Parse.valueGo (n + 1) i = Parse.alt (Parse.map Parse.single Value.single)
      (Parse.alt (Parse.map (Parse.objectOf (Parse.valueGo n)) (fun x => Value.object x.2 x.1))
        (Parse.map (Parse.valueListOf (Parse.valueGo n)) Value.list)) i := rfl
    rw [evl] at ev
    have gsg := (map_meets single_meets Value.single).val i
    cases e : (map single Value.single i).val with
    | some x =>
      obtain ⟨r0, v0⟩ := x
      have e' := gsg.symm.trans e
      have es := alt_steps_some e (alt (map (objectOf (valueGo n)) (fun x => Value.object x.2 x.1))
        (map (valueListOf (valueGo n)) Value.list))
      change (valueGo (n + 1) i).steps = _ at es
      have ev' : (valueGo (n + 1) i).val = some (r0, v0) := by
        rw [ev]; simp only [Parse.alt, e']
      have m := @mul_step (600 * B) _ _ ((map_strict single_strict).ne e')
      refine ⟨fun r a h => ?_, fun h => by rw [ev'] at h; cases h⟩
      rw [ev'] at h
      cases h
      omega
    | none =>
      have e' := gsg.symm.trans e
      have ev1 : (valueGo (n + 1) i).val = Parse.alt (Parse.map (Parse.objectOf (Parse.valueGo n)) (fun x => Value.object x.2 x.1))
          (Parse.map (Parse.valueListOf (Parse.valueGo n)) Value.list) i := by
        rw [ev]; simp only [Parse.alt, e']
      have gm := separatedPair_gives ident_meets.val (sep_meets ':').val g
      have hm : Consumes (Parse.separatedPair Parse.ident (Parse.delimited Parse.cos0 (Parse.char ':') Parse.cos0) (Parse.valueGo n)) :=
        pair_consumes ident_strict.consumes (preceded_consumes (sep_strict ':').consumes hc)
      cases hch : Parse.char '[' i with
      | some x =>
        obtain ⟨x1, x2⟩ := x
        have hi' := char_inv hch
        have hd : Parse.docComment i = some (i, []) := by
          rw [hi']; exact doc_stays rfl
        have ho : Parse.char '{' i = none := by rw [hi']; exact char_none (by decide)
        obtain ⟨b2, v2⟩ := objectOf_cheap T g hc i hi hd ho
        have ev2 : (valueGo (n + 1) i).val = Parse.map (Parse.valueListOf (Parse.valueGo n)) Value.list i := by
          rw [ev1]; simp only [Parse.alt, Parse.map, v2]
        have a3 := map_steps (valueListOf_gives g) (valueListOf_strict hc).consumes Value.list i
        obtain ⟨l1, l2⟩ := brackets_paid (A := 600 * B) (B := 21 * B) (N := N) (by omega) (by omega) '[' ']' (sep_meets ',').val g
          (sep_strict ',') hc (fun j hj => Nat.le_trans (T.comma j hj) (by omega)) (fun j hj => Nat.le_trans (T.cos0 j hj) (by omega))
          ih (fun j hj => sep_stuck (by decide) hj) (fun j hj h => value_cheap T n j hj h) i hi
        change ((valueListOf (valueGo n) i).val = none → (valueListOf (valueGo n) i).steps ≤ _) at l1
        change (∀ r as, (valueListOf (valueGo n) i).val = some (r, as) → (valueListOf (valueGo n) i).steps + _ + _ ≤ _) at l2
        have gl := valueListOf_gives g i
        refine ⟨fun r a h => ?_, fun h => ?_⟩
        · rw [ev2] at h
          obtain ⟨as, h⟩ := map_inv h
          have := l2 _ _ (gl.trans h)
          omega
        · rw [ev2] at h
          have := l1 (gl.trans (map_none_inv h))
          omega
      | none =>
        obtain ⟨b2, v2⟩ := listOf_cheap T g hc i hi hch
        have ev2 : (valueGo (n + 1) i).val = Parse.map (Parse.objectOf (Parse.valueGo n)) (fun x => Value.object x.2 x.1) i := by
          rw [ev1]
          cases h : Parse.map (Parse.objectOf (Parse.valueGo n)) (fun x => Value.object x.2 x.1) i with
          | some x => simp only [Parse.alt, h]
          | none => simp only [Parse.alt, h]; simp only [Parse.map, v2]
        have a3 := map_steps (objectOf_gives g) (objectOf_strict hc).consumes (fun x => Value.object x.2 x.1) i
        have bd := T.doc i hi
        have gd := docComment_meets.val i
        have go := objectOf_gives g i
        obtain ⟨j, d, hj⟩ : ∃ j d, Parse.docComment i = some (j, d) := by
          obtain ⟨r, as, h, -⟩ := many0_total docLine_strict i
          exact ⟨r, as, h⟩
        have hjl := Consumes.le docComment_consumes hj
        have mj : 600 * B * j.length ≤ 600 * B * i.length := Nat.mul_le_mul_left _ hjl
        have es := pair_steps_some (gd.trans hj) (brackets '{' (delimited cos0 (char ',') cos0)
          (separatedPair ident (delimited cos0 (char ':') cos0) (valueGo n)) '}')
        change (objectOf (valueGo n) i).steps = _ at es
        obtain ⟨l1, l2⟩ := brackets_paid (A := 600 * B) (B := 21 * B) (N := N) (by omega) (by omega) '{' '}' (sep_meets ',').val gm
          (sep_strict ',') hm (fun j hj => Nat.le_trans (T.comma j hj) (by omega)) (fun j hj => Nat.le_trans (T.cos0 j hj) (by omega))
          (fun j hj => (member_paid (by omega) T g hc ih j hj).1) (fun j hj => sep_stuck (by decide) hj)
          (fun j hj _ => by
            cases hid : Parse.ident j with
            | none => exact .inl (Nat.le_trans ((member_paid (A := 600 * B) (by omega) T g hc ih j hj).2 hid) (by omega))
            | some x => exact .inr (ident_stuck (by rw [hid]; simp))) j (by omega)
        have gb := delimited_gives (terminated_gives (char_meets '{').val cos0_meets.val) (sepList0_gives (sep_meets ',').val gm)
          (preceded_gives cos0_meets.val (char_meets '}').val) j
        have eo : Parse.objectOf (Parse.valueGo n) i = (match Brackets '{' (Parse.delimited Parse.cos0 (Parse.char ',') Parse.cos0)
            (Parse.separatedPair Parse.ident (Parse.delimited Parse.cos0 (Parse.char ':') Parse.cos0) (Parse.valueGo n)) '}' j with
          | none => none
          | some (r', b) => some (r', (d, b))) := by
          simp only [Parse.objectOf, Parse.pair, hj]
          unfold Brackets
          generalize Parse.delimited (Parse.terminated (Parse.char '{') Parse.cos0) _ _ j = o
          cases o <;> rfl
        refine ⟨fun r a h => ?_, fun h => ?_⟩
        · rw [ev2] at h
          obtain ⟨as, h⟩ := map_inv h
          rw [eo] at h
          split at h
          · cases h
          · rename_i r' b hb
            cases h
            have := l2 _ _ (gb.trans hb)
            omega
        · rw [ev2] at h
          have h := map_none_inv h
          rw [eo] at h
          split at h
          · rename_i hb
            have := l1 (gb.trans hb)
            omega
          · cases h

def value_meets_ : Meets 4 value_ Parse.value_ where
  C := 600 * valueC
  pos := by omega
  steps N i hi := by
    have T := parts N
    have h := valueGo_paid T (i.length + 1) i hi
    have h1 : (valueGo (i.length + 1) i).steps ≤ 600 * (valueC * (N + 1) ^ 3) * i.length + 600 * (valueC * (N + 1) ^ 3) := by
      cases e : (valueGo (i.length + 1) i).val with
      | none => exact h.bad e
      | some x => have := h.ok _ _ e; omega
    refine Nat.le_trans h1 ?_
    calc 600 * (valueC * (N + 1) ^ 3) * i.length + 600 * (valueC * (N + 1) ^ 3)
        = 600 * (valueC * (N + 1) ^ 3) * (i.length + 1) := by rw [Nat.mul_succ]
      _ ≤ 600 * (valueC * (N + 1) ^ 3) * (N + 1) := Nat.mul_le_mul_left _ (by omega)
      _ = 600 * valueC * (N + 1) ^ 4 := by rw [Nat.pow_succ (N + 1) 3]; simp only [Nat.mul_assoc]
  val i := valueGo_gives _ i
  reads i := valueGo_reads _ i
  consumes := value__strict.consumes

end Butte.Parse.Timed
