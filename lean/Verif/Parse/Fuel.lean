import Verif.Parse.Suffix
/-
The numbers that bound nesting in the model of `type_` and `value_` are never reached: both satisfy the recursive
equations of parser.rs.
-/
namespace Butte.Parse

variable {α β γ : Type}

/-- The two parsers agree on texts of at most `n` characters. -/
def AgreeUpTo (n : Nat) (p q : P α) : Prop := ∀ i, i.length ≤ n → p i = q i

theorem AgreeUpTo.mono {p q : P α} {m n : Nat} (h : AgreeUpTo n p q) (hm : m ≤ n) : AgreeUpTo m p q :=
  fun i hi => h i (by omega)

theorem agree_refl (n : Nat) (p : P α) : AgreeUpTo n p p := fun _ _ => rfl

theorem agree_map {n : Nat} {p q : P α} (h : AgreeUpTo n p q) (f : α → β) : AgreeUpTo n (map p f) (map q f) := by
  intro i hi
  unfold map
  rw [h i hi]

theorem agree_alt {n : Nat} {p q p' q' : P α} (hp : AgreeUpTo n p p') (hq : AgreeUpTo n q q') :
    AgreeUpTo n (alt p q) (alt p' q') := by
  intro i hi
  unfold alt
  rw [hp i hi, hq i hi]

theorem agree_pair {n : Nat} {p : P α} {q q' : P β} (hc : Consumes p) (hq : AgreeUpTo n q q') :
    AgreeUpTo n (pair p q) (pair p q') := by
  intro i hi
  unfold pair
  cases hp : p i with
  | none => rfl
  | some x =>
    obtain ⟨r, a⟩ := x
    obtain ⟨w, rfl⟩ := hc _ _ _ hp
    simp only
    rw [hq r (by simp at hi; omega)]

/-- Behind a parser that consumes, shorter texts are enough. -/
theorem agree_pair_strict {n : Nat} {p : P α} {q q' : P β} (hc : Strict p) (hq : AgreeUpTo n q q') :
    AgreeUpTo (n + 1) (pair p q) (pair p q') := by
  intro i hi
  unfold pair
  cases hp : p i with
  | none => rfl
  | some x =>
    obtain ⟨r, a⟩ := x
    have := hc.ne hp
    simp only
    rw [hq r (by omega)]

theorem agree_pair_left {n : Nat} {p p' : P α} {q : P β} (hp : AgreeUpTo n p p') :
    AgreeUpTo n (pair p q) (pair p' q) := by
  intro i hi
  unfold pair
  rw [hp i hi]

theorem agree_preceded {n : Nat} {p : P α} {q q' : P β} (hc : Consumes p) (hq : AgreeUpTo n q q') :
    AgreeUpTo n (preceded p q) (preceded p q') := agree_map (agree_pair hc hq) _

theorem agree_preceded_strict {n : Nat} {p : P α} {q q' : P β} (hc : Strict p) (hq : AgreeUpTo n q q') :
    AgreeUpTo (n + 1) (preceded p q) (preceded p q') := agree_map (agree_pair_strict hc hq) _

theorem agree_terminated {n : Nat} {p p' : P α} {q : P β} (hp : AgreeUpTo n p p') :
    AgreeUpTo n (terminated p q) (terminated p' q) := agree_map (agree_pair_left hp) _

theorem agree_delimited {n : Nat} {p : P α} {q q' : P β} {s : P γ} (hc : Strict p) (hq : AgreeUpTo n q q') :
    AgreeUpTo (n + 1) (delimited p q s) (delimited p q' s) := agree_preceded_strict hc (agree_terminated hq)

theorem agree_sepGo {n : Nat} {s : P β} {p p' : P α} (hs : Consumes s) (hpc : Consumes p) (hp : AgreeUpTo n p p') :
    ∀ k, AgreeUpTo n (sepGo s p k) (sepGo s p' k)
  | 0 => fun _ _ => rfl
  | k + 1 => by
    intro i hi
    unfold sepGo
    cases hsi : s i with
    | none => rfl
    | some x =>
      obtain ⟨r, b⟩ := x
      obtain ⟨w, rfl⟩ := hs _ _ _ hsi
      have hr : r.length ≤ n := by simp at hi; omega
      simp only
      rw [← hp r hr]
      split
      · rfl
      · cases hpr : p r with
        | none => rfl
        | some y =>
          obtain ⟨r', a⟩ := y
          obtain ⟨w', rfl⟩ := hpc _ _ _ hpr
          simp only
          rw [agree_sepGo hs hpc hp k r' (by simp at hr; omega)]

theorem agree_sepList0 {n : Nat} {s : P β} {p p' : P α} (hs : Consumes s) (hpc : Consumes p)
    (hp : AgreeUpTo n p p') : AgreeUpTo n (sepList0 s p) (sepList0 s p') := by
  intro i hi
  unfold sepList0 sepList1
  rw [← hp i hi]
  cases hpi : p i with
  | none => rfl
  | some x =>
    obtain ⟨r, a⟩ := x
    obtain ⟨w, rfl⟩ := hpc _ _ _ hpi
    simp only
    rw [agree_sepGo hs hpc hp _ r (by simp at hi; omega)]

variable [Env]

theorem typeGo_agree : ∀ n m k, n < m → n < k → AgreeUpTo n (typeGo m) (typeGo k)
  | n, 0, _, h, _ => by omega
  | n, _, 0, _, h => by omega
  | 0, m + 1, k + 1, _, _ => by
    intro i hi
    have : i = [] := List.length_eq_zero_iff.mp (by omega)
    subst this
    rfl
  | n + 1, m + 1, k + 1, hm, hk => by
    unfold typeGo
    exact agree_alt (agree_refl _ _) (agree_alt (agree_refl _ _) (agree_alt
      (agree_map (agree_delimited (char_strict _) (typeGo_agree n m k (by omega) (by omega))) _) (agree_refl _ _)))

omit [Env] in
/-- Parsers bounded by nesting depth agree with the unbounded one. -/
theorem bounded_agree {g : Nat → P α} (h : ∀ n m k, n < m → n < k → AgreeUpTo n (g m) (g k)) (n : Nat) :
    AgreeUpTo n (g (n + 1)) (fun i => g (i.length + 1) i) :=
  fun j hj => h j.length (n + 1) (j.length + 1) (by omega) (by omega) j (Nat.le_refl _)

/-- `type_` as written in parser.rs 1275-1307, without the bound. -/
theorem type_unfold : type_ =
    alt (builtinAlt builtins)
      (alt (value .string (tag c!"string"))
        (alt (map (delimited (char '[') type_ (char ']')) .array)
          (map qualifiedIdent .ident))) := by
  funext i
  cases i with
  | nil => rfl
  | cons c i =>
    show typeGo ((i.length + 1) + 1) (c :: i) = _
    rw [typeGo]
    exact agree_alt (agree_refl _ _) (agree_alt (agree_refl _ _) (agree_alt (agree_map (agree_delimited (char_strict _)
      (bounded_agree typeGo_agree i.length)) _) (agree_refl _ _))) (c :: i) (Nat.le_refl _)

theorem agree_objectOf {n : Nat} {v v' : P Ast.Value} (hc : Consumes v) (h : AgreeUpTo n v v') :
    AgreeUpTo (n + 1) (objectOf v) (objectOf v') := by
  unfold objectOf
  refine agree_pair docComment_consumes (agree_delimited (terminated_strict_left (char_strict _) cos0_consumes)
    (agree_sepList0 (sep_strict ',').consumes ?_ ?_))
  · exact pair_consumes ident_strict.consumes (preceded_consumes (sep_strict ':').consumes hc)
  · exact agree_pair ident_strict.consumes (agree_preceded (sep_strict ':').consumes h)

omit [Env] in
theorem agree_valueListOf {n : Nat} {v v' : P Ast.Value} (hc : Consumes v) (h : AgreeUpTo n v v') :
    AgreeUpTo (n + 1) (valueListOf v) (valueListOf v') :=
  agree_delimited (terminated_strict_left (char_strict _) cos0_consumes)
    (agree_sepList0 (sep_strict ',').consumes hc h)

theorem valueGo_agree : ∀ n m k, n < m → n < k → AgreeUpTo n (valueGo m) (valueGo k)
  | n, 0, _, h, _ => by omega
  | n, _, 0, _, h => by omega
  | 0, m + 1, k + 1, _, _ => by
    intro i hi
    have : i = [] := List.length_eq_zero_iff.mp (by omega)
    subst this
    have h : ∀ n, valueGo (n + 1) [] = none := by
      intro n
      cases h : valueGo (n + 1) [] with
      | none => rfl
      | some x => have := (valueGo_strict (n + 1)).ne h; simp at this
    rw [h, h]
  | n + 1, m + 1, k + 1, hm, hk => by
    have ih := valueGo_agree n m k (by omega) (by omega)
    have hc := (valueGo_strict m).consumes
    unfold valueGo
    exact agree_alt (agree_refl _ _) (agree_alt (agree_map (agree_objectOf hc ih) _)
      (agree_map (agree_valueListOf hc ih) _))

/-- `value_` as written in parser.rs 1575-1581, without the bound. -/
theorem value_unfold : value_ =
    alt (map single .single)
      (alt (map object (fun x => .object x.2 x.1))
        (map (valueListOf value_) .list)) := by
  funext i
  cases i with
  | nil =>
    have h : ∀ x, value_ [] = some x → False := fun x hx => by have := value__strict.ne hx; simp at this
    have h1 : value_ [] = none := by cases hx : value_ [] with
      | none => rfl
      | some x => exact (h x hx).elim
    rw [h1]
    symm
    cases hx : alt (map single Ast.Value.single) (alt (map object (fun x => .object x.2 x.1))
        (map (valueListOf value_) .list)) [] with
    | none => rfl
    | some x =>
      have := (alt_strict (map_strict single_strict) (alt_strict (map_strict object_strict)
        (map_strict (valueListOf_strict value__strict.consumes)))).ne hx
      simp at this
  | cons c i =>
    show valueGo ((i.length + 1) + 1) (c :: i) = _
    rw [valueGo]
    have hc := (valueGo_strict (i.length + 1)).consumes
    have h := bounded_agree valueGo_agree i.length
    exact agree_alt (agree_refl _ _) (agree_alt (agree_map (agree_objectOf hc h) _)
      (agree_map (agree_valueListOf hc h) _)) (c :: i) (Nat.le_refl _)

end Butte.Parse
