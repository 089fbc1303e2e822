import Verif.Parse.Depth
import Verif.Parse.Suffix
/-
A bound on the stack of the parser that holds for every text: a constant, and a constant for every opening bracket.
-/
namespace Butte.Parse.Stack

open Ast

variable {α β γ : Type}

/-- The number of opening brackets of a text, square or curly. -/
def opens (i : Str) : Nat := i.countP (fun c => c == '[' || c == '{')

theorem opens_suffix {r i : Str} (h : r <:+ i) : opens r ≤ opens i := h.sublist.countP_le

theorem opens_cons (c : Char) (i : Str) : opens (c :: i) = opens i + if c == '[' || c == '{' then 1 else 0 := by
  unfold opens
  rw [List.countP_cons]

/-- The rule needs at most `C` frames and `B` for every opening bracket. -/
class Low (B : Nat) (p : DP α) where
  C : Nat
  le : ∀ N i, opens i ≤ N → p.deep i ≤ C + B * N
  sfx : Consumes p.run

def low_leaf {B : Nat} {p : P α} (h : Consumes p) : Low B (leaf p) where
  C := 1
  le := fun _ _ _ => Nat.le_add_right _ _
  sfx := h

variable {B : Nat} {p q : DP α} {s : DP β}

instance low_map (f : α → β) [h : Low B p] : Low B (map p f) where
  C := h.C + 1
  le N i hi := by have := h.le N i hi; show p.deep i + 1 ≤ _; omega
  sfx := map_consumes h.sfx

instance low_mapRes (f : α → Option β) [h : Low B p] : Low B (mapRes p f) where
  C := h.C + 1
  le N i hi := by have := h.le N i hi; show p.deep i + 1 ≤ _; omega
  sfx := mapRes_consumes h.sfx

instance low_value (b : β) [h : Low B p] : Low B (value b p) := low_map _

instance low_opt [h : Low B p] : Low B (opt p) where
  C := h.C + 1
  le N i hi := by have := h.le N i hi; show p.deep i + 1 ≤ _; omega
  sfx := opt_consumes h.sfx

instance low_pnot [h : Low B p] : Low B (pnot p) where
  C := h.C + 1
  le N i hi := by have := h.le N i hi; show p.deep i + 1 ≤ _; omega
  sfx := pnot_consumes

instance low_recognize [h : Low B p] : Low B (recognize p) where
  C := h.C + 1
  le N i hi := by have := h.le N i hi; show p.deep i + 1 ≤ _; omega
  sfx := recognize_consumes h.sfx

theorem alt_deep (p q : DP α) (i : Str) : (alt p q).deep i ≤ max (p.deep i) (q.deep i) + 1 := by
  unfold alt
  dsimp only
  split <;> omega

theorem pair_deep_none {i : Str} (h : p.run i = none) : (pair p s).deep i = p.deep i + 1 := by
  unfold pair
  simp only [h]

theorem pair_deep_some {i r : Str} {a : α} (h : p.run i = some (r, a)) :
    (pair p s).deep i = max (p.deep i) (s.deep r) + 1 := by
  unfold pair
  simp only [h]

instance low_alt [h : Low B p] [k : Low B q] : Low B (alt p q) where
  C := max h.C k.C + 1
  le N i hi := by
    have h1 := h.le N i hi
    have h2 := k.le N i hi
    have := alt_deep p q i
    omega
  sfx := alt_consumes h.sfx k.sfx

instance low_pair [h : Low B p] [k : Low B s] : Low B (pair p s) where
  C := max h.C k.C + 1
  le N i hi := by
    have h1 := h.le N i hi
    cases e : p.run i with
    | none => rw [pair_deep_none e]; omega
    | some x =>
      have h2 := k.le N x.1 (Nat.le_trans (opens_suffix (h.sfx i x.1 x.2 e)) hi)
      rw [pair_deep_some e]
      omega
  sfx := pair_consumes h.sfx k.sfx

instance low_preceded [h : Low B p] [k : Low B s] : Low B (preceded p s) := low_map _
instance low_terminated [h : Low B p] [k : Low B s] : Low B (terminated p s) := low_map _
instance low_delimited {t : DP γ} [h : Low B p] [k : Low B s] [l : Low B t] : Low B (delimited p s t) := low_preceded
instance low_separatedPair {t : DP γ} [h : Low B p] [k : Low B s] [l : Low B t] : Low B (separatedPair p s t) := low_pair

theorem manyDeep_le (h : Consumes p.run) {D N : Nat} (hp : ∀ i, opens i ≤ N → p.deep i ≤ D) :
    ∀ n i, opens i ≤ N → manyDeep p n i ≤ D
  | 0, _, _ => Nat.zero_le _
  | n + 1, i, hi => by
    unfold manyDeep
    have h1 := hp i hi
    split
    · exact h1
    · rename_i r a e
      have h2 := manyDeep_le h hp n r (Nat.le_trans (opens_suffix (h _ _ _ e)) hi)
      split <;> omega

instance low_many0 [h : Low B p] : Low B (many0 p) where
  C := h.C + 1
  le N i hi := by
    have := manyDeep_le h.sfx (h.le N) (i.length + 1) i hi
    show _ + 1 ≤ _
    omega
  sfx := many0_consumes h.sfx

instance low_many1 [h : Low B p] : Low B (many1 p) where
  C := h.C + 1
  le N i hi := by
    have h1 := h.le N i hi
    unfold many1
    dsimp only
    split
    · omega
    · rename_i r a e
      have := manyDeep_le h.sfx (h.le N) (r.length + 1) r (Nat.le_trans (opens_suffix (h.sfx _ _ _ e)) hi)
      omega
  sfx := many1_consumes h.sfx

theorem sepDeep_le (hs : Consumes s.run) (h : Consumes p.run) {D N : Nat} (hsd : ∀ i, opens i ≤ N → s.deep i ≤ D)
    (hp : ∀ i, opens i ≤ N → p.deep i ≤ D) : ∀ n i, opens i ≤ N → sepDeep s p n i ≤ D
  | 0, _, _ => Nat.zero_le _
  | n + 1, i, hi => by
    unfold sepDeep
    have h1 := hsd i hi
    split
    · exact h1
    · rename_i r b e
      have hr := Nat.le_trans (opens_suffix (hs _ _ _ e)) hi
      have h2 := hp r hr
      split
      · exact h1
      · split
        · omega
        · rename_i r' a e'
          have h3 := sepDeep_le hs h hsd hp n r' (Nat.le_trans (opens_suffix (h _ _ _ e')) hr)
          split <;> omega

theorem listDeep_le (hs : Consumes s.run) (h : Consumes p.run) {D N : Nat} (hsd : ∀ i, opens i ≤ N → s.deep i ≤ D)
    (hp : ∀ i, opens i ≤ N → p.deep i ≤ D) {i : Str} (hi : opens i ≤ N) : listDeep s p i ≤ D + 1 := by
  unfold listDeep
  have h1 := hp i hi
  split
  · omega
  · rename_i r a e
    have h2 := sepDeep_le hs h hsd hp (r.length + 1) r (Nat.le_trans (opens_suffix (h _ _ _ e)) hi)
    split <;> omega

instance low_sepList1 [k : Low B s] [h : Low B p] : Low B (sepList1 s p) where
  C := max k.C h.C + 1
  le N i hi := by
    have := listDeep_le k.sfx h.sfx (D := max k.C h.C + B * N) (fun j hj => by have := k.le N j hj; omega)
      (fun j hj => by have := h.le N j hj; omega) hi
    show listDeep s p i ≤ _
    omega
  sfx := (sepList1_strict k.sfx h.sfx).consumes

instance low_sepList0 [k : Low B s] [h : Low B p] : Low B (sepList0 s p) where
  C := max k.C h.C + 1
  le N i hi := by
    have := listDeep_le k.sfx h.sfx (D := max k.C h.C + B * N) (fun j hj => by have := k.le N j hj; omega)
      (fun j hj => by have := h.le N j hj; omega) hi
    show listDeep s p i ≤ _
    omega
  sfx := sepList0_consumes k.sfx h.sfx

instance : Low B (fail : DP α) := low_leaf (fun _ _ _ e => by cases e)
instance (f : Char → Bool) : Low B (satisfy f) := low_leaf satisfy_strict.consumes
instance (c : Char) : Low B (char c) := low_leaf satisfy_strict.consumes
instance (l : Str) : Low B (oneOf l) := low_leaf satisfy_strict.consumes
instance (t : Str) : Low B (tag t) := low_leaf tag_consumes
instance (f : Char → Bool) : Low B (takeWhile f) := low_leaf takeWhile_consumes
instance (f : Char → Bool) : Low B (takeWhile1 f) := low_leaf takeWhile1_strict.consumes
instance (n : Nat) : Low B (take n) := low_leaf take_consumes
instance : Low B digit0 := low_leaf takeWhile_consumes
instance : Low B digit1 := low_leaf takeWhile1_strict.consumes
instance : Low B hexDigit0 := low_leaf takeWhile_consumes
instance : Low B hexDigit1 := low_leaf takeWhile1_strict.consumes
instance : Low B multispace1 := low_leaf takeWhile1_strict.consumes
instance : Low B notLineEnding := low_leaf notLineEnding_consumes
instance : Low B lineEnding := low_leaf lineEnding_strict.consumes
instance (f : Char → Bool) (c : Char) (g : Char → Bool) : Low B (escaped f c g) := low_leaf escaped_consumes

variable [Env]

instance : Low B plusOrMinus := by unfold plusOrMinus; infer_instance
instance : Low B ident := by unfold ident; infer_instance
instance : Low B stringConstant := by unfold stringConstant; infer_instance
instance : Low B comment := by unfold comment; infer_instance
instance : Low B commentOrSpace := by unfold commentOrSpace; infer_instance
instance : Low B cos0 := by unfold cos0; infer_instance
instance : Low B cos1 := by unfold cos1; infer_instance
instance : Low B rawDocComment := by unfold rawDocComment; infer_instance
instance : Low B docComment := by unfold docComment; infer_instance
instance : Low B qualifiedIdent := by unfold qualifiedIdent; infer_instance
instance : Low B decIntegerConstant := by unfold decIntegerConstant; infer_instance
instance : Low B hexIntegerConstant := by unfold hexIntegerConstant; infer_instance
instance : Low B integerConstant := by unfold integerConstant; infer_instance
instance (f : Str → Bool) : Low B (reMatch f) := low_leaf reMatch_consumes
instance : Low B nan := by unfold nan; infer_instance
instance : Low B infOrInfinity := by unfold infOrInfinity; infer_instance
instance : Low B specialFloatConstant := by unfold specialFloatConstant; infer_instance
instance : Low B hexFloatExponent := by unfold hexFloatExponent; infer_instance
instance : Low B hexFloatConstant := by unfold hexFloatConstant; infer_instance
instance : Low B decFloatExponent := by unfold decFloatExponent; infer_instance
instance : Low B decFloatConstant := by unfold decFloatConstant; infer_instance
instance : Low B floatConstant := by unfold floatConstant; infer_instance

instance (b : Bool) (w : Str) : Low B (boolWord b w) := by
  unfold boolWord
  have : Low B (leaf (fun i => match Parse.reMatch (hasWord w) i with
    | none => none
    | some _ => Parse.tag w i)) := low_leaf (by
      intro i r a e
      dsimp only at e
      split at e
      · cases e
      · exact tag_consumes _ _ _ e)
  infer_instance

instance : Low B booleanConstant := by unfold booleanConstant; infer_instance
instance : Low B scalar := by unfold scalar; infer_instance
instance : Low B single := by unfold single; infer_instance
instance : Low B defaultValue := by unfold defaultValue; infer_instance

@[instance_reducible] def low_builtinAlt (B : Nat) : ∀ l, Low B (builtinAlt l)
  | [] => inferInstanceAs (Low B fail)
  | (b, n) :: l =>
    have := low_builtinAlt B l
    inferInstanceAs (Low B (alt (value (.builtin b) (tag n)) (builtinAlt l)))

instance : Low B (builtinAlt builtins) := low_builtinAlt B _
instance : Low B rawMetadata := by unfold rawMetadata; infer_instance
instance : Low B metadata := by unfold metadata; infer_instance

/-! ### The rules that call themselves -/

/-- What stands between an opening bracket and the closing one. -/
theorem delimited_open {t : DP γ} [hp : Low B p] [ht : Low B t] (ho : ∀ i r a, p.run i = some (r, a) → opens r + 1 ≤ opens i)
    (hsx : Consumes s.run) {N D : Nat} (hs : ∀ r, opens r + 1 ≤ N → s.deep r ≤ D) {i : Str} (hi : opens i ≤ N) :
    (delimited p s t).deep i ≤ max (hp.C + B * N) (max D (ht.C + B * N)) + 4 := by
  have h1 := hp.le N i hi
  show (pair p (terminated s t)).deep i + 1 ≤ _
  cases e : p.run i with
  | none => rw [pair_deep_none e]; omega
  | some x =>
    have h0 := ho i x.1 x.2 e
    have h2 := hs x.1 (by omega)
    rw [pair_deep_some e]
    have h3 : (terminated s t).deep x.1 ≤ max D (ht.C + B * N) + 2 := by
      show (pair s t).deep x.1 + 1 ≤ _
      cases e' : s.run x.1 with
      | none => rw [pair_deep_none e']; omega
      | some y =>
        have h4 := ht.le N y.1 (by have := opens_suffix (hsx _ _ _ e'); omega)
        rw [pair_deep_some e']
        omega
    omega

theorem char_opens {c : Char} (hc : (c == '[' || c == '{') = true) {i r : Str} {a : Char} (e : (char c).run i = some (r, a)) :
    opens r + 1 ≤ opens i := by
  cases i with
  | nil => cases e
  | cons d i =>
    have e : (if (d == c) = true then some (i, d) else none) = some (r, a) := e
    split at e
    · rename_i h
      cases e
      rw [beq_iff_eq] at h
      rw [opens_cons, h, if_pos hc]
      omega
    · cases e

theorem typeGo_sfx : ∀ n, Consumes (typeGo n).run
  | 0 => fun _ _ _ e => by cases e
  | n + 1 => alt_consumes (low_builtinAlt 0 builtins).sfx (alt_consumes (value_consumes tag_consumes)
      (alt_consumes (map_consumes (delimited_consumes satisfy_strict.consumes (typeGo_sfx n) satisfy_strict.consumes))
        (map_consumes (Low.sfx 0 (p := qualifiedIdent)))))

/-- The frames of `type_` without those for brackets. -/
def typeC : Nat := max (low_builtinAlt 12 builtins).C (Low.C 12 qualifiedIdent) + 12

theorem typeGo_low : ∀ n N i, opens i ≤ N → (typeGo n).deep i ≤ typeC + 12 * N
  | 0, N, i, _ => by show 1 ≤ _; unfold typeC; omega
  | n + 1, N, i, hi => by
    have h1 := (low_builtinAlt 12 builtins).le N i hi
    have h2 := Low.le (B := 12) (p := qualifiedIdent) N i hi
    have h3 : (delimited (char '[') (typeGo n) (char ']')).deep i ≤ max (1 + 12 * N) (max (typeC + 12 * N - 12) (1 + 12 * N)) + 4 :=
      delimited_open (B := 12) (fun i r a e => char_opens (by decide) e) (typeGo_sfx n)
        (fun r hr => Nat.le_trans (typeGo_low n (N - 1) r (by omega)) (by omega)) hi
    unfold typeGo
    have a1 := alt_deep (builtinAlt builtins) (alt (value Ty.string (tag c!"string"))
        (alt (map (delimited (char '[') (typeGo n) (char ']')) Ty.array) (map qualifiedIdent Ty.ident))) i
    have a2 := alt_deep (value Ty.string (tag c!"string"))
        (alt (map (delimited (char '[') (typeGo n) (char ']')) Ty.array) (map qualifiedIdent Ty.ident)) i
    have a3 := alt_deep (map (delimited (char '[') (typeGo n) (char ']')) Ty.array) (map qualifiedIdent Ty.ident) i
    have a4 : (map (delimited (char '[') (typeGo n) (char ']')) Ty.array).deep i = (delimited (char '[') (typeGo n) (char ']')).deep i + 1 := rfl
    have a5 : (map qualifiedIdent Ty.ident).deep i = qualifiedIdent.deep i + 1 := rfl
    have a6 : (value Ty.string (tag c!"string")).deep i = 2 := rfl
    unfold typeC at *
    omega

instance : Low 12 type_ where
  C := typeC + 1
  le N i hi := by
    have := typeGo_low (i.length + 1) N i hi
    show (typeGo (i.length + 1)).deep i + 1 ≤ _
    omega
  sfx := fun i => typeGo_sfx (i.length + 1) i

theorem bracket_opens {c : Char} (hc : (c == '[' || c == '{') = true) {i r : Str} {a : Char}
    (e : (terminated (char c) cos0).run i = some (r, a)) : opens r + 1 ≤ opens i := by
  obtain ⟨x, e⟩ : ∃ x, (pair (char c) cos0).run i = some (r, x) := by
    have e : Parse.map (pair (char c) cos0).run (·.1) i = some (r, a) := e
    unfold Parse.map at e
    split at e
    · cases e
    · rename_i he; cases e; exact ⟨_, he⟩
  obtain ⟨r', h1, h2⟩ := pair_some e
  have h3 := char_opens hc h1
  have h4 := opens_suffix ((Low.sfx 0 (p := cos0)) _ _ _ h2)
  omega

/-- The items of a list or of an object inside brackets. -/
theorem items_deep {c d : Char} (hc : (c == '[' || c == '{') = true) (hsx : Consumes p.run) {N D : Nat}
    (hD : Low.C 12 (delimited cos0 (char ',') cos0) + 12 * N ≤ D) (hD' : Low.C 12 (preceded cos0 (char d)) + 12 * N ≤ D + 1)
    (hD'' : Low.C 12 (terminated (char c) cos0) + 12 * N ≤ D + 1)
    (hp : ∀ r, opens r + 1 ≤ N → p.deep r ≤ D) {i : Str} (hi : opens i ≤ N) :
    (delimited (terminated (char c) cos0) (sepList0 (delimited cos0 (char ',') cos0) p) (preceded cos0 (char d))).deep i ≤ D + 5 := by
  have hs : ∀ r, opens r + 1 ≤ N → (sepList0 (delimited cos0 (char ',') cos0) p).deep r ≤ D + 1 := fun r hr =>
    listDeep_le (Low.sfx 0) hsx (N := N - 1) (fun j hj => by
        have := Low.le (B := 12) (p := delimited cos0 (char ',') cos0) N j (by omega)
        omega) (fun j hj => hp j (by omega)) (by omega)
  have := delimited_open (B := 12) (p := terminated (char c) cos0) (t := preceded cos0 (char d)) (fun _ _ _ e => bracket_opens hc e)
    (sepList0_consumes (Low.sfx 0 (p := delimited cos0 (char ',') cos0)) hsx) hs hi
  omega

theorem objectOf_sfx {v : DP Value} (h : Consumes v.run) : Consumes (objectOf v).run :=
  pair_consumes (Low.sfx 0 (p := docComment)) (delimited_consumes (Low.sfx 0 (p := terminated (char '{') cos0))
    (sepList0_consumes (Low.sfx 0 (p := delimited cos0 (char ',') cos0))
      (pair_consumes (Low.sfx 0 (p := ident)) (preceded_consumes (Low.sfx 0 (p := delimited cos0 (char ':') cos0)) h)))
    (Low.sfx 0 (p := preceded cos0 (char '}'))))

omit [Env] in
theorem valueListOf_sfx {v : DP Value} (h : Consumes v.run) : Consumes (valueListOf v).run :=
  delimited_consumes (Low.sfx 0 (p := terminated (char '[') cos0))
    (sepList0_consumes (Low.sfx 0 (p := delimited cos0 (char ',') cos0)) h) (Low.sfx 0 (p := preceded cos0 (char ']')))

theorem valueGo_sfx : ∀ n, Consumes (valueGo n).run
  | 0 => fun _ _ _ e => by cases e
  | n + 1 => alt_consumes (map_consumes (Low.sfx 0 (p := single)))
      (alt_consumes (map_consumes (objectOf_sfx (valueGo_sfx n))) (map_consumes (valueListOf_sfx (valueGo_sfx n))))

/-- The frames of a rule for values without those for brackets. -/
def valueC : Nat := max (Low.C 12 single) (max (Low.C 12 docComment) (max (Low.C 12 ident) (Low.C 12 (delimited cos0 (char ':') cos0)))) + 12

theorem objectOf_deep {v : DP Value} (hsx : Consumes v.run) {N : Nat} (hv : ∀ r, opens r + 1 ≤ N → v.deep r ≤ valueC + 12 * N - 12)
    {i : Str} (hi : opens i ≤ N) : (objectOf v).deep i ≤ valueC + 12 * N - 3 := by
  have h1 := Low.le (B := 12) (p := docComment) N i hi
  have hp : ∀ r, opens r + 1 ≤ N → (separatedPair ident (delimited cos0 (char ':') cos0) v).deep r ≤ valueC + 12 * N - 9 := by
    intro r hr
    have h2 := Low.le (B := 12) (p := ident) N r (by omega)
    show (pair ident (preceded (delimited cos0 (char ':') cos0) v)).deep r ≤ _
    cases e : ident.run r with
    | none => rw [pair_deep_none e]; unfold valueC at *; omega
    | some x =>
      rw [pair_deep_some e]
      have hx := opens_suffix (Low.sfx 0 (p := ident) _ _ _ e)
      have h3 := Low.le (B := 12) (p := delimited cos0 (char ':') cos0) N x.1 (by omega)
      have h4 : (preceded (delimited cos0 (char ':') cos0) v).deep x.1 ≤ valueC + 12 * N - 10 := by
        show (pair (delimited cos0 (char ':') cos0) v).deep x.1 + 1 ≤ _
        cases e' : (delimited cos0 (char ':') cos0).run x.1 with
        | none => rw [pair_deep_none e']; unfold valueC at *; omega
        | some y =>
          rw [pair_deep_some e']
          have hy := opens_suffix (Low.sfx 0 (p := delimited cos0 (char ':') cos0) _ _ _ e')
          have h5 := hv y.1 (by omega)
          unfold valueC at *
          omega
      unfold valueC at *
      omega
  have c1 : Low.C 12 (delimited cos0 (char ',') cos0) = Low.C 12 (delimited cos0 (char ':') cos0) := rfl
  have c2 : Low.C 12 (preceded cos0 (char '}')) ≤ Low.C 12 (delimited cos0 (char ':') cos0) := by decide
  have c3 : Low.C 12 (terminated (char '{') cos0) ≤ Low.C 12 (delimited cos0 (char ':') cos0) := by decide
  have hsx' : Consumes (separatedPair ident (delimited cos0 (char ':') cos0) v).run :=
    pair_consumes (Low.sfx 0 (p := ident)) (preceded_consumes (Low.sfx 0 (p := delimited cos0 (char ':') cos0)) hsx)
  have h6 := fun j hj => items_deep (c := '{') (d := '}') (by decide) hsx' (N := N) (D := valueC + 12 * N - 9)
    (by unfold valueC; omega) (by unfold valueC; omega) (by unfold valueC; omega) hp (i := j) hj
  show (pair docComment _).deep i ≤ _
  cases e : docComment.run i with
  | none => rw [pair_deep_none e]; unfold valueC at *; omega
  | some x =>
    rw [pair_deep_some e]
    have := h6 x.1 (Nat.le_trans (opens_suffix (Low.sfx 0 (p := docComment) _ _ _ e)) hi)
    unfold valueC at *
    omega

theorem valueListOf_deep {v : DP Value} (hsx : Consumes v.run) {N : Nat} (hv : ∀ r, opens r + 1 ≤ N → v.deep r ≤ valueC + 12 * N - 12)
    {i : Str} (hi : opens i ≤ N) : (valueListOf v).deep i ≤ valueC + 12 * N - 4 := by
  have c1 : Low.C 12 (delimited cos0 (char ',') cos0) = Low.C 12 (delimited cos0 (char ':') cos0) := rfl
  have c2 : Low.C 12 (preceded cos0 (char ']')) ≤ Low.C 12 (delimited cos0 (char ':') cos0) := by decide
  have c3 : Low.C 12 (terminated (char '[') cos0) ≤ Low.C 12 (delimited cos0 (char ':') cos0) := by decide
  have := items_deep (c := '[') (d := ']') (by decide) hsx (N := N) (D := valueC + 12 * N - 9)
    (by unfold valueC; omega) (by unfold valueC; omega) (by unfold valueC; omega) (fun r hr => Nat.le_trans (hv r hr) (by omega)) hi
  have e : valueC + 12 * N - 4 = valueC + 12 * N - 9 + 5 := by unfold valueC; omega
  rw [e]
  exact this

theorem valueGo_low : ∀ n N i, opens i ≤ N → (valueGo n).deep i ≤ valueC + 12 * N
  | 0, N, i, _ => by show 1 ≤ _; unfold valueC; omega
  | n + 1, N, i, hi => by
    have hv : ∀ r, opens r + 1 ≤ N → (valueGo n).deep r ≤ valueC + 12 * N - 12 := fun r hr =>
      Nat.le_trans (valueGo_low n (N - 1) r (by omega)) (by omega)
    have h1 := Low.le (B := 12) (p := single) N i hi
    have h2 := objectOf_deep (valueGo_sfx n) hv hi
    have h3 := valueListOf_deep (valueGo_sfx n) hv hi
    unfold valueGo
    have a1 := alt_deep (map single Value.single) (alt (map (objectOf (valueGo n)) (fun x => Value.object x.2 x.1))
        (map (valueListOf (valueGo n)) Value.list)) i
    have a2 := alt_deep (map (objectOf (valueGo n)) (fun x => Value.object x.2 x.1)) (map (valueListOf (valueGo n)) Value.list) i
    have a3 : (map single Value.single).deep i = single.deep i + 1 := rfl
    have a4 : (map (objectOf (valueGo n)) (fun x => Value.object x.2 x.1)).deep i = (objectOf (valueGo n)).deep i + 1 := rfl
    have a5 : (map (valueListOf (valueGo n)) Value.list).deep i = (valueListOf (valueGo n)).deep i + 1 := rfl
    have : 12 ≤ valueC := by unfold valueC; omega
    have : Low.C 12 single + 12 ≤ valueC := by unfold valueC; omega
    omega

instance : Low 12 value_ where
  C := valueC + 1
  le N i hi := by
    have := valueGo_low (i.length + 1) N i hi
    show (valueGo (i.length + 1)).deep i + 1 ≤ _
    omega
  sfx := fun i => valueGo_sfx (i.length + 1) i

/-! ### Declarations -/

instance : Low 12 object := by unfold object objectOf; infer_instance
instance : Low 12 fieldDecl := by unfold fieldDecl; infer_instance
instance : Low 12 productTypeBody := by unfold productTypeBody; infer_instance
instance (kw : Str) : Low 12 (productDecl kw) := by unfold productDecl; infer_instance
instance : Low B enumvalDecl := by unfold enumvalDecl; infer_instance
instance : Low B enumBody := by unfold enumBody; infer_instance
instance : Low 12 enumDecl := by unfold enumDecl; infer_instance
instance : Low B unionDecl := by unfold unionDecl; infer_instance
instance : Low B rpcMethod := by unfold rpcMethod; infer_instance
instance : Low B rpcDecl := by unfold rpcDecl; infer_instance
instance (kw : Str) [Low B p] : Low B (keywordDecl kw p) := by unfold keywordDecl; infer_instance
instance : Low B namespaceDecl := by unfold namespaceDecl; infer_instance
instance : Low B attributeDecl := by unfold attributeDecl; infer_instance
instance : Low B rootDecl := by unfold rootDecl; infer_instance
instance : Low B fileExtensionDecl := by unfold fileExtensionDecl; infer_instance
instance : Low B fileIdentifierDecl := by unfold fileIdentifierDecl; infer_instance
instance : Low B includeDecl := by unfold includeDecl; infer_instance
instance : Low 12 element := by unfold element; infer_instance
instance : Low 12 schemaDecl := by unfold schemaDecl; infer_instance


end Butte.Parse.Stack
