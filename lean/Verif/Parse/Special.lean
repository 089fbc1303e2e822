import Verif.Parse.Complete
/-
The words `nan`, `inf` and `infinity` in a schema text, and what they do to the numbers in front of them.
-/
namespace Butte.Parse

open Ast

variable {α β γ : Type}

/-! ### Where a result comes from -/

theorem map_inv {p : P α} {f : α → β} {i r : Str} {b : β} (h : map p f i = some (r, b)) :
    ∃ a, p i = some (r, a) ∧ f a = b := by
  unfold map at h
  cases e : p i with
  | none => rw [e] at h; cases h
  | some x => rw [e] at h; cases h; exact ⟨x.2, rfl, rfl⟩

theorem mapRes_inv {p : P α} {f : α → Option β} {i r : Str} {b : β} (h : mapRes p f i = some (r, b)) :
    ∃ a, p i = some (r, a) ∧ f a = some b := by
  unfold mapRes at h
  cases e : p i with
  | none => rw [e] at h; cases h
  | some x =>
    rw [e] at h
    dsimp only at h
    cases e' : f x.2 with
    | none => rw [e'] at h; cases h
    | some y => rw [e'] at h; cases h; exact ⟨x.2, rfl, e'⟩

theorem pair_inv {p : P α} {q : P β} {i r : Str} {x : α × β} (h : pair p q i = some (r, x)) :
    ∃ j, p i = some (j, x.1) ∧ q j = some (r, x.2) := by
  obtain ⟨j, h1, h2⟩ := pair_some h
  exact ⟨j, h1, h2⟩

theorem preceded_inv {p : P α} {q : P β} {i r : Str} {b : β} (h : preceded p q i = some (r, b)) :
    ∃ j a, p i = some (j, a) ∧ q j = some (r, b) := by
  obtain ⟨x, h1, rfl⟩ := map_inv h
  obtain ⟨j, h2, h3⟩ := pair_inv h1
  exact ⟨j, _, h2, h3⟩

theorem terminated_inv {p : P α} {q : P β} {i r : Str} {a : α} (h : terminated p q i = some (r, a)) :
    ∃ j b, p i = some (j, a) ∧ q j = some (r, b) := by
  obtain ⟨x, h1, rfl⟩ := map_inv h
  obtain ⟨j, h2, h3⟩ := pair_inv h1
  exact ⟨j, _, h2, h3⟩

theorem delimited_inv {p : P α} {q : P β} {s : P γ} {i r : Str} {b : β} (h : delimited p q s i = some (r, b)) :
    ∃ j k a c, p i = some (j, a) ∧ q j = some (k, b) ∧ s k = some (r, c) := by
  obtain ⟨j, a, h1, h2⟩ := preceded_inv h
  obtain ⟨k, c, h3, h4⟩ := terminated_inv h2
  exact ⟨j, k, a, c, h1, h3, h4⟩

theorem alt_inv {p q : P α} {i r : Str} {a : α} (h : alt p q i = some (r, a)) :
    p i = some (r, a) ∨ (p i = none ∧ q i = some (r, a)) := by
  unfold alt at h
  cases e : p i with
  | none => rw [e] at h; exact .inr ⟨rfl, h⟩
  | some x => rw [e] at h; cases h; exact .inl rfl

theorem opt_inv {p : P α} {i r : Str} {o : Option α} (h : opt p i = some (r, o)) :
    (∃ a, p i = some (r, a) ∧ o = some a) ∨ (p i = none ∧ o = none ∧ r = i) := by
  unfold opt at h
  cases e : p i with
  | none => rw [e] at h; cases h; exact .inr ⟨rfl, rfl, rfl⟩
  | some x => rw [e] at h; cases h; exact .inl ⟨_, rfl, rfl⟩

theorem manyGo_mem {p : P α} : ∀ (n : Nat) {i r : Str} {as : List α}, manyGo p n i = some (r, as) →
    ∀ a ∈ as, ∃ j k, p j = some (k, a)
  | 0, _, _, _, h => by cases h
  | n + 1, i, r, as, h => by
    intro a ha
    unfold manyGo at h
    cases e : p i with
    | none => rw [e] at h; cases h; cases ha
    | some x =>
      rw [e] at h
      dsimp only at h
      split at h
      · cases h
      · obtain ⟨as', h1, rfl⟩ := push_some h
        rcases List.mem_cons.mp ha with rfl | ha
        · exact ⟨i, _, e⟩
        · exact manyGo_mem n h1 a ha

/-- Every item of a repetition was read somewhere. -/
theorem many0_mem {p : P α} {i r : Str} {as : List α} (h : many0 p i = some (r, as)) :
    ∀ a ∈ as, ∃ j k, p j = some (k, a) := manyGo_mem _ h

/-! ### Occurrences of the words -/

variable [Env]

theorem wordAt_of {w b : Str} (hb : ∀ c, b.head? = some c → Env.word c = false) : wordAt w (w ++ b) = true := by
  unfold wordAt
  rw [Bool.and_eq_true, List.isPrefixOf_iff_prefix]
  refine ⟨List.prefix_append _ _, ?_⟩
  rw [List.drop_left]
  cases b with
  | nil => rfl
  | cons c b => simp [hb c rfl]

theorem hasWordFrom_of {w b : Str} (hw : w ≠ []) (hb : ∀ c, b.head? = some c → Env.word c = false) :
    ∀ (a : Str) (before : Bool), (a = [] → before = false) → (∀ c, a.getLast? = some c → Env.word c = false) →
      hasWordFrom w before (a ++ (w ++ b)) = true
  | [], before, h, _ => by
    rw [h rfl]
    have := wordAt_of (w := w) hb
    cases w with
    | nil => exact absurd rfl hw
    | cons c w => rw [List.nil_append, List.cons_append, hasWordFrom, ← List.cons_append, this]; rfl
  | d :: a, before, _, h => by
    rw [List.cons_append, hasWordFrom, Bool.or_eq_true]
    right
    refine hasWordFrom_of hw hb a _ (fun e => ?_) (fun c hc => ?_)
    · subst e; exact h d rfl
    · refine h c ?_
      cases a with
      | nil => cases hc
      | cons e a => rw [List.getLast?_cons_cons]; exact hc

/-- One of the words occurs in the text. -/
def HasSpecial (t : Str) : Prop :=
  ∃ w ∈ [c!"nan", c!"inf", c!"infinity"], ∃ a b : Str, t = a ++ (w ++ b) ∧
    (∀ c, a.getLast? = some c → Env.word c = false) ∧ (∀ c, b.head? = some c → Env.word c = false)

theorem hasSpecial_iff {t : Str} : HasSpecial t ↔ ¬ NoSpecial t := by
  constructor
  · rintro ⟨w, hw, a, b, e, h1, h2⟩ h
    rcases h w hw a b e with ⟨c, hc, hw⟩ | ⟨c, hc, hw⟩
    · rw [h1 c hc] at hw; cases hw
    · rw [h2 c hc] at hw; cases hw
  · intro h
    unfold NoSpecial at h
    push Not at h
    obtain ⟨w, hw, a, b, e, h1, h2⟩ := h
    exact ⟨w, hw, a, b, e, fun c hc => by simpa using h1 c hc, fun c hc => by simpa using h2 c hc⟩

theorem HasSpecial.hasWord {t : Str} (h : HasSpecial t) :
    Parse.hasWord c!"nan" t = true ∨ (Parse.hasWord c!"inf" t || Parse.hasWord c!"infinity" t) = true := by
  obtain ⟨w, hw, a, b, rfl, h1, h2⟩ := h
  have hne : ∀ w ∈ [c!"nan", c!"inf", c!"infinity"], w ≠ [] := by decide
  have := hasWordFrom_of (hne w hw) h2 a false (fun _ => rfl) h1
  simp only [List.mem_cons, List.not_mem_nil, or_false] at hw
  rcases hw with rfl | rfl | rfl
  · exact .inl this
  · exact .inr (by rw [Bool.or_eq_true]; exact .inl this)
  · exact .inr (by rw [Bool.or_eq_true]; exact .inr this)

omit [Env] in
theorem special_first : ∀ w ∈ [c!"nan", c!"inf", c!"infinity"], ∃ c s, w = c :: s ∧ c ≠ '-' ∧ c ≠ '+' := by
  intro w hw
  simp only [List.mem_cons, List.not_mem_nil, or_false] at hw
  rcases hw with rfl | rfl | rfl <;> exact ⟨_, _, rfl, by decide, by decide⟩

theorem HasSpecial.afterSign {i r : Str} {o : Option Char} (h : HasSpecial i)
    (e : opt plusOrMinus i = some (r, o)) : HasSpecial r := by
  rcases sign_cases i with ⟨c, s, rfl, hc, e'⟩ | e'
  · rw [e] at e'
    cases e'
    obtain ⟨w, hw, a, b, e, h1, h2⟩ := h
    cases a with
    | nil =>
      obtain ⟨d, s, rfl, hd, hd'⟩ := special_first w hw
      cases e
      rcases hc with rfl | rfl
      · exact absurd rfl hd
      · exact absurd rfl hd'
    | cons d a =>
      cases e
      refine ⟨w, hw, a, b, rfl, fun c hc => h1 c ?_, h2⟩
      cases a with
      | nil => cases hc
      | cons e a => rw [List.getLast?_cons_cons]; exact hc
  · rw [e] at e'
    cases e'
    exact h

/-- Words in front do not matter, unless a letter in front joins the word. -/
theorem HasSpecial.prepend {t : Str} (h : HasSpecial t) {s : Str} (hs : Cut s) : HasSpecial (s ++ t) := by
  obtain ⟨w, hw, a, b, rfl, h1, h2⟩ := h
  refine ⟨w, hw, s ++ a, b, by simp, fun c hc => ?_, h2⟩
  rw [List.getLast?_append] at hc
  cases ha : a.getLast? with
  | none => rw [ha] at hc; exact hs c hc
  | some d => rw [ha] at hc; cases hc; exact h1 _ ha

/-- A number is sought first among the special ones: when one of the words occurs anywhere, everything up to the end of
the file is taken for it. -/
theorem special_swallow {u : Str} (h : HasSpecial u) : ∃ b, specialFloatConstant u = some ([], b) := by
  have hs : ∃ r o, opt plusOrMinus u = some (r, o) := by
    rcases sign_cases u with ⟨c, s, -, -, e⟩ | e
    · exact ⟨_, _, e⟩
    · exact ⟨_, _, e⟩
  obtain ⟨r, o, e⟩ := hs
  have hr := (h.afterSign e).hasWord
  have hre : ∀ f : Str → Bool, f r = true → reMatch f r = some ([], r) := by
    intro f hf; unfold reMatch; rw [if_pos hf]
  unfold specialFloatConstant
  cases hn : hasWord c!"nan" r with
  | true =>
    have h1 : nan u = some ([], nanBits (o == some '-')) := map_eq (terminated_eq e (hre _ hn))
    exact ⟨_, alt_left h1⟩
  | false =>
    have h1 : nan u = none := by
      refine map_none (terminated_none_right e ?_)
      unfold reMatch; rw [if_neg (by simp [hn])]
    rw [hn] at hr
    rcases hr with hr | hr
    · cases hr
    · have h2 : infOrInfinity u = some ([], infBits (o == some '-')) := map_eq (terminated_eq e (hre _ hr))
      exact ⟨_, (alt_right h1).trans h2⟩

theorem scalar_swallow {u : Str} (h : HasSpecial u) : ∃ b, scalar u = some ([], .float b) := by
  obtain ⟨b, hb⟩ := special_swallow h
  exact ⟨b, alt_left (map_eq (alt_left hb))⟩

theorem default_swallow {u : Str} (h : HasSpecial u) : ∃ b, defaultValue u = some ([], .scalar (.float b)) := by
  obtain ⟨b, hb⟩ := scalar_swallow h
  exact ⟨b, alt_left (map_eq hb)⟩

omit [Env] in
theorem cos0_nil : cos0 [] = some ([], ()) := rfl

omit [Env] in
theorem fieldEnd_nil : pair cos0 (char ';') [] = none := rfl

omit [Env] in
theorem rawMetadata_nil [Env] : metadata [] = some ([], none) := rfl

/-- A field with a default is not read when one of the words occurs anywhere after the equals sign, be it in another
declaration or in a comment. -/
theorem fieldDecl_swallow {d : Comment} {dt : Str} (hd : DocText d dt) {i : Ident} (hi : IsIdent i) {w₁ w₂ w₃ w₄ : Str}
    (hw₁ : Trivia w₁) (hw₂ : Trivia w₂) {ty : Ty} {tt : Str} (hty : TyText ty tt) (hw₃ : Trivia w₃) (hw₄ : Trivia w₄)
    {u : Str} (hu : Solid u) (h : HasSpecial u) :
    fieldDecl (dt ++ (i ++ (w₁ ++ ':' :: (w₂ ++ (tt ++ (w₃ ++ '=' :: (w₄ ++ u))))))) = none := by
  obtain ⟨b, hb⟩ := default_swallow h
  refine map_none (terminated_none_right (a := (d, i, ty, some (.scalar (.float b)), none)) (pair_eq
    (docComment_eq hd (hi.tok _)) (pair_eq (terminated_eq (ident_eq hi (Follow.trivia hw₁ ':').delim.stops)
      (pair_eq (cos0_skip hw₁ (solid_punct _ _)) (pair_eq (char_eq _ _) (cos0_skip hw₂ (ty_tok hty _).solid))))
      (pair_eq (type_eq hty (Follow.trivia hw₃ '=')) (pair_eq (opt_some (preceded_eq (pair_eq (cos0_skip hw₃
        (solid_punct _ _)) (pair_eq (char_eq _ _) (cos0_skip hw₄ hu))) hb)) (preceded_eq cos0_nil rawMetadata_nil)))))
    fieldEnd_nil)

/-! ### No NaN among the defaults -/

/-- The bit pattern of a NaN. -/
def IsNan (b : Fin (2 ^ 64)) : Prop := 2047 * 2 ^ 52 < b.val % 2 ^ 63

omit [Env] in
theorem roundBits_le (e k p q : Nat) : roundBits e k p q ≤ (2 ^ e - 1) * 2 ^ k := Nat.min_le_right _ _

omit [Env] in
theorem decF64_notNan (neg : Bool) (n : Nat) (e : Int) : ¬ IsNan (decF64 neg n e) := by
  have h : ∀ x, x ≤ 2047 * 2 ^ 52 → ((if neg then 2 ^ 63 else 0) + x) % 2 ^ 64 % 2 ^ 63 ≤ 2047 * 2 ^ 52 := by
    intro x hx
    cases neg
    · rw [if_neg (by decide)]; omega
    · rw [if_pos rfl]; omega
  have h1 := roundBits_le 11 52 (n * 10 ^ e.toNat) 1
  have h2 := roundBits_le 11 52 n (10 ^ (-e).toNat)
  unfold IsNan decF64
  rw [Nat.not_lt]
  show ((if neg then 2 ^ 63 else 0) + _) % 2 ^ 64 % 2 ^ 63 ≤ _
  refine h _ ?_
  split
  · exact h1
  · exact h2

omit [Env] in
theorem negF64_nan {b : Fin (2 ^ 64)} (h : IsNan (negF64 b)) : IsNan b := by
  unfold IsNan negF64 at *
  rw [Fin.val_add] at h
  have : (0x8000000000000000 : Fin (2 ^ 64)).val = 2 ^ 63 := rfl
  rw [this] at h
  omega

/-- `hexf64` knows no NaN. -/
def HexfOk : Prop := ∀ s b, Env.hexf64 s = some b → ¬ IsNan b

omit [Env] in
theorem reMatch_rest {f : Str → Bool} {i r a : Str} (h : reMatch f i = some (r, a)) : r = [] := by
  unfold reMatch at h
  split at h
  · cases h; rfl
  · cases h

theorem special_rest {i r : Str} {b : Fin (2 ^ 64)} (h : specialFloatConstant i = some (r, b)) : r = [] := by
  rcases alt_inv h with h | ⟨-, h⟩
  · obtain ⟨a, h, -⟩ := map_inv h
    obtain ⟨j, c, -, h⟩ := terminated_inv h
    exact reMatch_rest h
  · obtain ⟨a, h, -⟩ := map_inv h
    obtain ⟨j, c, -, h⟩ := terminated_inv h
    exact reMatch_rest h

theorem floatConstant_nan (hx : HexfOk) {i r : Str} {b : Fin (2 ^ 64)} (h : floatConstant i = some (r, b))
    (hb : IsNan b) : r = [] := by
  rcases alt_inv h with h | ⟨-, h⟩
  · exact special_rest h
  · exfalso
    rcases alt_inv h with h | ⟨-, h⟩
    · obtain ⟨⟨o, x⟩, h, e⟩ := map_inv h
      obtain ⟨j, -, h⟩ := pair_inv h
      obtain ⟨s, -, h⟩ := mapRes_inv h
      have hn := hx _ _ h
      dsimp only at e hn
      split at e
      · subst e; exact hn (negF64_nan hb)
      · subst e; exact hn hb
    · obtain ⟨s, -, h⟩ := mapRes_inv h
      cases h
      exact decF64_notNan _ _ _ hb

theorem default_nan (hx : HexfOk) {i r : Str} {b : Fin (2 ^ 64)}
    (h : defaultValue i = some (r, .scalar (.float b))) (hb : IsNan b) : r = [] := by
  rcases alt_inv h with h | ⟨-, h⟩
  · obtain ⟨s, h, e⟩ := map_inv h
    cases e
    rcases alt_inv h with h | ⟨-, h⟩
    · obtain ⟨s, h, e⟩ := map_inv h
      cases e
      exact floatConstant_nan hx h hb
    · rcases alt_inv h with h | ⟨-, h⟩
      · obtain ⟨s, h, e⟩ := map_inv h; cases e
      · obtain ⟨s, h, e⟩ := map_inv h; cases e
  · obtain ⟨s, h, e⟩ := map_inv h; cases e

omit [Env] in
theorem consumes_nil {p : P α} (hp : Consumes p) {r : Str} {a : α} (h : p [] = some (r, a)) : r = [] :=
  List.suffix_nil.mp (hp _ _ _ h)

/-- No text is read as a field whose default is NaN. -/
theorem fieldDecl_notNan (hx : HexfOk) {t r : Str} {f : Field} (h : fieldDecl t = some (r, f)) {b : Fin (2 ^ 64)}
    (hf : f.default = some (.scalar (.float b))) : ¬ IsNan b := by
  intro hb
  obtain ⟨⟨d, i, ty, df, m⟩, h0, e⟩ := map_inv h
  subst e
  cases hf
  obtain ⟨j, x, h1, h2⟩ := terminated_inv h0
  obtain ⟨k₁, -, h1⟩ := pair_inv h1
  obtain ⟨k₂, -, h1⟩ := pair_inv h1
  obtain ⟨k₃, -, h1⟩ := pair_inv h1
  obtain ⟨k₄, h3, h1⟩ := pair_inv h1
  rcases opt_inv h3 with ⟨a, h3, e⟩ | ⟨-, e, -⟩
  · cases e
    obtain ⟨k₅, y, -, h4⟩ := preceded_inv h3
    have e := default_nan hx h4 hb
    subst e
    have e := consumes_nil (preceded_consumes cos0_consumes metadata_consumes) h1
    subst e
    rw [fieldEnd_nil] at h2
    cases h2
  · cases e

theorem productDecl_fields {kw t r : Str} {p : Product} (h : productDecl kw t = some (r, p)) :
    ∀ f ∈ p.fields, ∃ j k, fieldDecl j = some (k, f) := by
  obtain ⟨⟨d, i, m, fs⟩, h0, e⟩ := map_inv h
  subst e
  clear h
  obtain ⟨j, -, h⟩ := pair_inv h0
  obtain ⟨j, a, -, h⟩ := preceded_inv h
  obtain ⟨j, -, h⟩ := pair_inv h
  obtain ⟨j, -, h⟩ := pair_inv h
  obtain ⟨j, k, a, c, -, h, -⟩ := delimited_inv h
  intro f hf
  obtain ⟨j, k, h⟩ := many0_mem h f hf
  obtain ⟨j, k, a, c, -, h, -⟩ := delimited_inv h
  exact ⟨j, k, h⟩

/-- A table or struct read as a declaration was read by the rule for tables or structs. -/
theorem element_product {t r : Str} {e : Element} (h : element t = some (r, e)) {p : Product}
    (hp : e = .table p ∨ e = .struct p) : ∃ kw, productDecl kw t = some (r, p) := by
  have no : ∀ {α : Type} {q : P α} {f : α → Element}, map q f t = some (r, e) →
      (∀ a, f a ≠ .table p ∧ f a ≠ .struct p) → False := by
    intro α q f h hf
    obtain ⟨x, -, e⟩ := map_inv h
    have := hf x
    rw [e] at this
    exact hp.elim this.1 this.2
  unfold element at h
  rcases alt_inv h with h | ⟨-, h⟩
  · exact (no h (fun _ => ⟨nofun, nofun⟩)).elim
  rcases alt_inv h with h | ⟨-, h⟩
  · obtain ⟨x, h', rfl⟩ := map_inv h
    rcases hp with hp | hp <;> cases hp
    exact ⟨_, h'⟩
  rcases alt_inv h with h | ⟨-, h⟩
  · obtain ⟨x, h', rfl⟩ := map_inv h
    rcases hp with hp | hp <;> cases hp
    exact ⟨_, h'⟩
  rcases alt_inv h with h | ⟨-, h⟩
  · exact (no h (fun _ => ⟨nofun, nofun⟩)).elim
  rcases alt_inv h with h | ⟨-, h⟩
  · exact (no h (fun _ => ⟨nofun, nofun⟩)).elim
  rcases alt_inv h with h | ⟨-, h⟩
  · exact (no h (fun _ => ⟨nofun, nofun⟩)).elim
  rcases alt_inv h with h | ⟨-, h⟩
  · exact (no h (fun _ => ⟨nofun, nofun⟩)).elim
  rcases alt_inv h with h | ⟨-, h⟩
  · exact (no h (fun _ => ⟨nofun, nofun⟩)).elim
  rcases alt_inv h with h | ⟨-, h⟩
  · exact (no h (fun _ => ⟨nofun, nofun⟩)).elim
  rcases alt_inv h with h | ⟨-, h⟩
  · exact (no h (fun _ => ⟨nofun, nofun⟩)).elim
  · exact (no h (fun _ => ⟨nofun, nofun⟩)).elim

theorem schemaDecl_elements {t r : Str} {s : Schema} (h : schemaDecl t = some (r, s)) :
    ∀ e ∈ s.elements, ∃ j k, element j = some (k, e) := by
  obtain ⟨⟨is, es⟩, h0, e⟩ := map_inv h
  subst e
  clear h
  obtain ⟨j, -, h⟩ := pair_inv h0
  intro e he
  obtain ⟨j, k, h⟩ := many0_mem h e he
  obtain ⟨j, k, a, c, -, h, -⟩ := delimited_inv h
  exact ⟨j, k, h⟩

/-- No text is read as a schema with a NaN among the defaults. -/
theorem schemaDecl_notNan (hx : HexfOk) {t r : Str} {s : Schema} (h : schemaDecl t = some (r, s)) {p : Product}
    (hp : .table p ∈ s.elements ∨ .struct p ∈ s.elements) {f : Field} (hf : f ∈ p.fields) {b : Fin (2 ^ 64)}
    (hd : f.default = some (.scalar (.float b))) : ¬ IsNan b := by
  have : ∃ kw j k, productDecl kw j = some (k, p) := by
    rcases hp with hp | hp
    · obtain ⟨j, k, h⟩ := schemaDecl_elements h _ hp
      obtain ⟨kw, h⟩ := element_product h (.inl rfl)
      exact ⟨kw, j, k, h⟩
    · obtain ⟨j, k, h⟩ := schemaDecl_elements h _ hp
      obtain ⟨kw, h⟩ := element_product h (.inr rfl)
      exact ⟨kw, j, k, h⟩
  obtain ⟨kw, j, k, h⟩ := this
  obtain ⟨j, k, h⟩ := productDecl_fields h f hf
  exact fieldDecl_notNan hx h hd

end Butte.Parse
