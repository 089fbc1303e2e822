import Verif.Parse.DepthBound
import Verif.Parse.StepsValue
import Verif.Parse.Sound
import Verif.Tests.Kernel
/-
The stack that reading a type, a value or a whole schema takes is proportional to how deeply types and values are nested in what is
read.
-/
namespace Butte.Parse.Stack

open Ast

variable {α β γ : Type}

/-! ### Nesting -/

/-- How many brackets there are around the innermost type. -/
def nestTy : Ty → Nat
  | .array t => nestTy t + 1
  | _ => 0

mutual
/-- How many lists and objects there are around the innermost value. -/
def nestValue : Value → Nat
  | .single _ => 0
  | .object l _ => nestPairs l + 1
  | .list l => nestValues l + 1

def nestPairs : List (Ident × Value) → Nat
  | [] => 0
  | (_, v) :: l => max (nestValue v) (nestPairs l)

def nestValues : List Value → Nat
  | [] => 0
  | v :: l => max (nestValue v) (nestValues l)
end

/-- The largest of the numbers of the items. -/
def big (m : α → Nat) : List α → Nat
  | [] => 0
  | a :: l => max (m a) (big m l)

/-- The nesting of the types of a table or struct. -/
def nestProduct (t : Product) : Nat := big (fun f : Field => nestTy f.ty) t.fields

/-- The nesting of types and values in a declaration. -/
def nestElement : Element → Nat
  | .table t | .struct t => nestProduct t
  | .enum e => nestTy e.baseType
  | .object l _ => nestPairs l
  | _ => 0

/-- The deepest nesting of types and values in a schema. -/
def nestSchema (s : Schema) : Nat := big nestElement s.elements

theorem nestPairs_big : ∀ l, nestPairs l = big (fun x => nestValue x.2) l
  | [] => by simp only [nestPairs, big]
  | (k, v) :: l => by simp only [nestPairs, big, nestPairs_big l]

theorem nestValues_big : ∀ l, nestValues l = big nestValue l
  | [] => by simp only [nestValues, big]
  | v :: l => by simp only [nestValues, big, nestValues_big l]

/-! ### Rules that succeed -/

/-- When the rule succeeds, its stack is proportional to a measure of the result. -/
structure Tight (p : DP α) (m : α → Nat) where
  C : Nat
  lo : ∀ i r a, p.run i = some (r, a) → m a ≤ p.deep i
  hi : ∀ i r a, p.run i = some (r, a) → p.deep i ≤ C + 12 * m a

theorem flat (p : DP α) [Low 0 p] (i : Str) : p.deep i ≤ Low.C 0 p := by
  have := Low.le (B := 0) (p := p) _ i (Nat.le_refl _)
  omega

/-- A rule whose stack is bounded. -/
def tight_flat (p : DP α) [Low 0 p] : Tight p (fun _ => 0) where
  C := Low.C 0 p
  lo _ _ _ _ := Nat.zero_le _
  hi i _ _ _ := flat p i

def Tight.map {p : DP α} {m : α → Nat} (h : Tight p m) (f : α → β) {k : β → Nat} (hk : ∀ a, k (f a) = m a) :
    Tight (map p f) k where
  C := h.C + 1
  lo i r b e := by
    obtain ⟨a, e', rfl⟩ := Parse.map_inv e
    rw [hk]
    exact Nat.le_trans (h.lo _ _ _ e') (Nat.le_succ _)
  hi i r b e := by
    obtain ⟨a, e', rfl⟩ := Parse.map_inv e
    rw [hk]
    have := h.hi _ _ _ e'
    show p.deep i + 1 ≤ _
    omega

def Tight.pair {p : DP α} {q : DP β} {m : α → Nat} {k : β → Nat} (h : Tight p m) (h' : Tight q k) :
    Tight (pair p q) (fun x => max (m x.1) (k x.2)) where
  C := max h.C h'.C + 1
  lo i r x e := by
    obtain ⟨j, h1, h2⟩ := pair_inv e
    rw [pair_deep_some h1]
    have := h.lo _ _ _ h1
    have := h'.lo _ _ _ h2
    omega
  hi i r x e := by
    obtain ⟨j, h1, h2⟩ := pair_inv e
    rw [pair_deep_some h1]
    have := h.hi _ _ _ h1
    have := h'.hi _ _ _ h2
    omega

/-- `preceded` by a rule whose stack is bounded. -/
def Tight.after {p : DP α} [Low 0 p] {q : DP β} {k : β → Nat} (h : Tight q k) : Tight (preceded p q) k :=
  Tight.map ((tight_flat p).pair h) _ (fun a => by omega)

/-- `terminated` by a rule whose stack is bounded. -/
def Tight.before {p : DP α} {q : DP β} [Low 0 q] {k : α → Nat} (h : Tight p k) : Tight (terminated p q) k :=
  Tight.map (h.pair (tight_flat q)) _ (fun a => by omega)

/-- `delimited` by rules whose stack is bounded. -/
def Tight.within {p : DP α} {q : DP β} {s : DP γ} [Low 0 p] [Low 0 s] {k : β → Nat} (h : Tight q k) : Tight (delimited p q s) k :=
  (h.before (q := s)).after

def Tight.raise {p : DP α} {m k : α → Nat} (h : Tight p m) (hk : ∀ a, k a = m a) : Tight p k where
  C := h.C
  lo i r a e := by rw [hk]; exact h.lo i r a e
  hi i r a e := by rw [hk]; exact h.hi i r a e

theorem alt_deep_some {p q : DP α} {i : Str} {x : Str × α} (h : p.run i = some x) : (alt p q).deep i = p.deep i + 1 := by
  unfold alt
  simp only [h]

theorem alt_deep_none {p q : DP α} {i : Str} (h : p.run i = none) : (alt p q).deep i = max (p.deep i) (q.deep i) + 1 := by
  unfold alt
  simp only [h]

/-- A rule in brackets that is not there. -/
theorem delimited_deep_none {p : DP α} {q : DP β} {s : DP γ} {i : Str} (h : p.run i = none) : (delimited p q s).deep i = p.deep i + 2 := by
  show (pair p (terminated q s)).deep i + 1 = _
  rw [pair_deep_none h]

theorem char_none {c d : Char} (h : d ≠ c) (x : Str) : (char c).run (d :: x) = none := by
  show (if (d == c) = true then some (x, d) else none) = none
  rw [if_neg (by rw [beq_iff_eq]; exact h)]

/-! ### Types -/

variable [Env]

theorem ident_head {i : Str} (h : Parse.ident i ≠ none) : ∃ c x, i = c :: x ∧ identStart c = true := by
  cases i with
  | nil => exact absurd rfl h
  | cons c x =>
    refine ⟨c, x, rfl, ?_⟩
    by_contra hc
    apply h
    have : Parse.satisfy identStart (c :: x) = none := by simp only [Parse.satisfy, hc]; rfl
    simp only [Parse.ident, Parse.recognize, Parse.preceded, Parse.map, Parse.pair, this]

theorem start_ne {c d : Char} (h : identStart c = true) (h1 : d.toNat < 128) (h2 : d.isAlpha = false) (h3 : d ≠ '_') : c ≠ d := by
  rintro rfl
  simp only [identStart, Bool.or_eq_true, beq_iff_eq, h3, or_false, Env.alphabetic_ascii c h1, h2] at h
  cases h

theorem ident_none {d : Char} (h1 : d.toNat < 128) (h2 : d.isAlpha = false) (h3 : d ≠ '_') (x : Str) : Parse.ident (d :: x) = none := by
  by_contra h
  obtain ⟨c, y, e, hc⟩ := ident_head h
  cases e
  exact start_ne hc h1 h2 h3 rfl

theorem typeC_eq : typeC = 35 := by kernel_rfl

theorem typeGo_exact : ∀ n i r a, (typeGo n).run i = some (r, a) →
    nestTy a ≤ (typeGo n).deep i ∧ (typeGo n).deep i ≤ typeC + 12 * nestTy a
  | 0, _, _, _, e => by cases e
  | n + 1, i, r, a, e => by
    have c1 := @flat _ (builtinAlt builtins) (low_builtinAlt 0 _) i
    have c1' : (low_builtinAlt 0 builtins).C ≤ 23 := by decide
    have c2 := flat qualifiedIdent i
    have c2' : Low.C 0 qualifiedIdent ≤ 23 := by rw [show Low.C 0 qualifiedIdent = 13 from by kernel_rfl]; decide
    have c3 : (value Ty.string (tag c!"string")).deep i = 2 := rfl
    have a5 : (map qualifiedIdent Ty.ident).deep i = qualifiedIdent.deep i + 1 := rfl
    have a4 : (map (delimited (char '[') (typeGo n) (char ']')) Ty.array).deep i = (delimited (char '[') (typeGo n) (char ']')).deep i + 1 := rfl
    have ht := typeC_eq
    unfold typeGo at e ⊢
    rcases Parse.alt_inv e with e | ⟨e0, e⟩
    · rw [alt_deep_some e]
      have : nestTy a = 0 := by
        have e' : Parse.builtinAlt builtins i = some (r, a) := e
        obtain ⟨x, -, rfl, -⟩ := builtinAlt_inv _ e'
        rfl
      omega
    rw [alt_deep_none e0]
    rcases Parse.alt_inv e with e | ⟨e1, e⟩
    · rw [alt_deep_some e]
      obtain ⟨x, -, rfl⟩ := Parse.map_inv e
      simp only [nestTy]
      omega
    rw [alt_deep_none e1]
    rcases Parse.alt_inv e with e | ⟨e2, e⟩
    · rw [alt_deep_some e]
      obtain ⟨x, e', rfl⟩ := Parse.map_inv e
      obtain ⟨j, k, _, _, h1, h2, h3⟩ := delimited_inv e'
      obtain ⟨l, u⟩ := typeGo_exact n _ _ _ h2
      have hd : (delimited (char '[') (typeGo n) (char ']')).deep i = max 1 (max ((typeGo n).deep j) 1 + 2) + 2 := by
        show (pair (char '[') (terminated (typeGo n) (char ']'))).deep i + 1 = _
        rw [pair_deep_some h1]
        show max 1 ((pair (typeGo n) (char ']')).deep j + 1) + 1 + 1 = _
        rw [pair_deep_some h2]
        rfl
      simp only [nestTy]
      omega
    · rw [alt_deep_none e2]
      obtain ⟨x, e', rfl⟩ := Parse.map_inv e
      have hn : (char '[').run i = none := by
        cases i with
        | nil => rfl
        | cons c y =>
          refine char_none ?_ y
          obtain ⟨j, b, bs, h1, -⟩ := sepList1_some e'
          obtain ⟨d, z, hz, hd⟩ := ident_head (i := c :: y) (by rw [show Parse.ident (c :: y) = _ from h1]; nofun)
          cases hz
          exact start_ne hd (by decide) (by decide) (by decide)
      rw [delimited_deep_none hn] at a4
      have : (char '[').deep i = 1 := rfl
      simp only [nestTy]
      omega

theorem type_exact : ∀ i r a, type_.run i = some (r, a) → nestTy a ≤ type_.deep i ∧ type_.deep i ≤ typeC + 1 + 12 * nestTy a := by
  intro i r a e
  have := typeGo_exact (i.length + 1) i r a e
  show _ ≤ (typeGo (i.length + 1)).deep i + 1 ∧ (typeGo (i.length + 1)).deep i + 1 ≤ _
  omega

def type_tight : Tight type_ nestTy where
  C := typeC + 1
  lo i r a e := (type_exact i r a e).1
  hi i r a e := (type_exact i r a e).2

/-! ### Lists -/

omit [Env] in
/-- What comes after white space and comments is neither. -/
theorem cos0_solid' {i r : Str} {u : Unit} (h : Parse.cos0 i = some (r, u)) : Parse.commentOrSpace r = none := by
  obtain ⟨l, h, -⟩ := Parse.map_inv h
  obtain ⟨r', as, h1, h2⟩ := many0_total commentOrSpace_strict i
  rw [h] at h1
  cases h1
  exact h2

omit [Env] in
theorem close_inv {d : Char} {i : Str} (hs : Parse.commentOrSpace i = none) (h : Parse.preceded Parse.cos0 (Parse.char d) i ≠ none) :
    ∃ x, i = d :: x := by
  have h0 := Timed.cos0_stays hs
  cases i with
  | nil => exact absurd rfl h
  | cons c x =>
    by_cases hc : c = d
    · exact ⟨x, by rw [hc]⟩
    · exact absurd (Timed.close_none rfl hs hc) h

omit [Env] in
theorem sepDeep_exact {p : DP α} {m : α → Nat} {d : Char} (hd : ',' ≠ d) {C : Nat} (hC : Low.C 0 (delimited cos0 (char ',') cos0) ≤ C)
    (hp : ∀ i r a, p.run i = some (r, a) → m a ≤ p.deep i ∧ p.deep i ≤ C + 12 * m a) :
    ∀ n i r l, Parse.sepGo (delimited cos0 (char ',') cos0).run p.run n i = some (r, l) →
      Parse.preceded Parse.cos0 (Parse.char d) r ≠ none →
      big m l ≤ sepDeep (delimited cos0 (char ',') cos0) p n i ∧ sepDeep (delimited cos0 (char ',') cos0) p n i ≤ C + 12 * big m l
  | 0, _, _, _, e, _ => by cases e
  | n + 1, i, r, l, e, hcl => by
    have hf := flat (delimited cos0 (char ',') cos0) i
    unfold Parse.sepGo at e
    unfold sepDeep
    cases hs : (delimited cos0 (char ',') cos0).run i with
    | none =>
      rw [hs] at e
      cases e
      simp only [big]
      omega
    | some x =>
      rw [hs] at e
      simp only at e ⊢
      split at e
      · cases e
      · rename_i hne
        rw [if_neg hne]
        cases h1 : p.run x.1 with
        | none =>
          rw [h1] at e
          cases e
          exact absurd (Timed.sep_stuck hd (by rw [show Parse.delimited Parse.cos0 (Parse.char ',') Parse.cos0 i = _ from hs]; nofun)) hcl
        | some y =>
          rw [h1] at e
          simp only at e ⊢
          split at e
          · cases e
          · rename_i hne'
            rw [if_neg hne']
            obtain ⟨as, e', rfl⟩ := push_some e
            obtain ⟨l1, u1⟩ := hp _ _ _ h1
            obtain ⟨l2, u2⟩ := sepDeep_exact hd hC hp n _ _ _ e' hcl
            simp only [big]
            omega

omit [Env] in
/-- The items of a list or of an object, when the closing bracket is found. -/
theorem items_exact {p : DP α} {m : α → Nat} {c d : Char} (hd : ',' ≠ d) {C : Nat} (hC : Low.C 0 (delimited cos0 (char ',') cos0) ≤ C)
    (hp : ∀ i r a, p.run i = some (r, a) → m a ≤ p.deep i ∧ p.deep i ≤ C + 12 * m a) (hend : ∀ x, p.deep (d :: x) ≤ C)
    {i r : Str} {l : List α}
    (e : (delimited (terminated (char c) cos0) (sepList0 (delimited cos0 (char ',') cos0) p) (preceded cos0 (char d))).run i = some (r, l)) :
    big m l + 1 ≤ (delimited (terminated (char c) cos0) (sepList0 (delimited cos0 (char ',') cos0) p) (preceded cos0 (char d))).deep i ∧
    (delimited (terminated (char c) cos0) (sepList0 (delimited cos0 (char ',') cos0) p) (preceded cos0 (char d))).deep i ≤ C + 5 + 12 * big m l := by
  obtain ⟨j, k, _, _, h1, h2, h3⟩ := delimited_inv e
  have hdeep : (delimited (terminated (char c) cos0) (sepList0 (delimited cos0 (char ',') cos0) p) (preceded cos0 (char d))).deep i =
      max ((terminated (char c) cos0).deep i) (max (listDeep (delimited cos0 (char ',') cos0) p j) ((preceded cos0 (char d)).deep k) + 2) + 2 := by
    show (pair (terminated (char c) cos0) (terminated _ _)).deep i + 1 = _
    rw [pair_deep_some h1]
    show max _ ((pair _ _).deep j + 1) + 1 + 1 = _
    rw [pair_deep_some h2]
    rfl
  have f1 := flat (terminated (char c) cos0) i
  have f2 := flat (preceded cos0 (char d)) k
  have g0 : Low.C 0 (delimited cos0 (char ',') cos0) = 12 := rfl
  have g1 : Low.C 0 (terminated (char c) cos0) = 10 := rfl
  have g2 : Low.C 0 (preceded cos0 (char d)) = 10 := rfl
  rw [hdeep]
  have hcl : Parse.preceded Parse.cos0 (Parse.char d) k ≠ none := by rw [show Parse.preceded Parse.cos0 (Parse.char d) k = _ from h3]; nofun
  have hj : Parse.commentOrSpace j = none := by
    obtain ⟨j', _, -, h⟩ := terminated_inv h1
    exact cos0_solid' h
  have h2' : Parse.sepList0 (delimited cos0 (char ',') cos0).run p.run j = some (k, l) := h2
  unfold Parse.sepList0 at h2'
  unfold listDeep
  cases h4 : p.run j with
  | none =>
    rw [h4] at h2'
    cases h2'
    obtain ⟨x, rfl⟩ := close_inv hj hcl
    have := hend x
    simp only [big]
    omega
  | some y =>
    rw [h4] at h2'
    obtain ⟨j', a, as, h5, hne, h6, rfl⟩ := sepList1_some h2'
    rw [h4] at h5
    cases h5
    simp only
    rw [if_neg hne]
    obtain ⟨l1, u1⟩ := hp _ _ _ h4
    obtain ⟨l2, u2⟩ := sepDeep_exact hd hC hp _ _ _ _ h6 hcl
    simp only [big]
    omega

/-! ### Values -/

theorem valueC_eq : valueC = 33 := by kernel_rfl
theorem single_C : Low.C 0 single = 21 := by kernel_rfl
omit [Env] in
theorem docComment_C : Low.C 0 docComment = 11 := by kernel_rfl
theorem ident_C : Low.C 0 ident = 4 := by kernel_rfl

/-- An object that is not there. -/
theorem objectOf_absent {v : DP Value} {i r : Str} {c : Comment} (h : Parse.docComment i = some (r, c)) (hr : (char '{').run r = none) :
    (objectOf v).deep i ≤ 12 := by
  have f := flat docComment i
  rw [docComment_C] at f
  show (pair docComment _).deep i ≤ _
  rw [pair_deep_some (p := docComment) (show docComment.run i = _ from h), delimited_deep_none]
  · have : (terminated (char '{') cos0).deep r = 3 := by
      show (pair (char '{') cos0).deep r + 1 = _
      rw [pair_deep_none hr]
      rfl
    omega
  · show Parse.terminated (char '{').run cos0.run r = none
    simp only [Parse.terminated, Parse.map, Parse.pair, hr]

omit [Env] in
/-- A list that is not there. -/
theorem valueListOf_absent {v : DP Value} {i : Str} (hr : (char '[').run i = none) : (valueListOf v).deep i = 5 := by
  unfold valueListOf
  rw [delimited_deep_none]
  · show (pair (char '[') cos0).deep i + 1 + 2 = _
    rw [pair_deep_none hr]
    rfl
  · show Parse.terminated (char '[').run cos0.run i = none
    simp only [Parse.terminated, Parse.map, Parse.pair, hr]

/-- In front of the closing bracket of a list. -/
theorem valueGo_end (n : Nat) (x : Str) : (valueGo n).deep (']' :: x) ≤ 24 := by
  cases n with
  | zero => show 1 ≤ 24; decide
  | succ n =>
    have f := flat single (']' :: x)
    rw [single_C] at f
    have h1 := objectOf_absent (v := valueGo n) (i := ']' :: x) (Timed.doc_stays rfl) (char_none (by decide) _)
    have h2 := valueListOf_absent (v := valueGo n) (i := ']' :: x) (char_none (by decide) _)
    unfold valueGo
    have a1 := alt_deep (map single Value.single) (alt (map (objectOf (valueGo n)) (fun x => Value.object x.2 x.1))
        (map (valueListOf (valueGo n)) Value.list)) (']' :: x)
    have a2 := alt_deep (map (objectOf (valueGo n)) (fun x => Value.object x.2 x.1)) (map (valueListOf (valueGo n)) Value.list) (']' :: x)
    have a3 : (map single Value.single).deep (']' :: x) = single.deep (']' :: x) + 1 := rfl
    have a4 : (map (objectOf (valueGo n)) (fun x => Value.object x.2 x.1)).deep (']' :: x) = (objectOf (valueGo n)).deep (']' :: x) + 1 := rfl
    have a5 : (map (valueListOf (valueGo n)) Value.list).deep (']' :: x) = (valueListOf (valueGo n)).deep (']' :: x) + 1 := rfl
    omega

/-- The stack of a rule for values when it succeeds. -/
def ValueExact (V : Nat) (v : DP Value) : Prop := ∀ i r a, v.run i = some (r, a) → nestValue a ≤ v.deep i ∧ v.deep i ≤ V + 12 * nestValue a

theorem objectOf_exact {V : Nat} (hV : valueC ≤ V) {v : DP Value} (hv : ValueExact V v) {i r : Str} {c : Comment} {l : List (Ident × Value)}
    (e : (objectOf v).run i = some (r, (c, l))) :
    nestPairs l + 1 ≤ (objectOf v).deep i ∧ (objectOf v).deep i ≤ V + 12 * nestPairs l + 9 := by
  obtain ⟨j, h1, h2⟩ := pair_inv e
  have f := flat docComment i
  rw [docComment_C] at f
  have hp : ∀ i r a, (separatedPair ident (delimited cos0 (char ':') cos0) v).run i = some (r, a) →
      nestValue a.2 ≤ (separatedPair ident (delimited cos0 (char ':') cos0) v).deep i ∧
      (separatedPair ident (delimited cos0 (char ':') cos0) v).deep i ≤ V + 3 + 12 * nestValue a.2 := by
    intro i r a e
    obtain ⟨j, h3, h4⟩ := pair_inv e
    obtain ⟨k, _, h5, h6⟩ := preceded_inv h4
    obtain ⟨l1, u1⟩ := hv _ _ _ h6
    have f1 := flat ident i
    rw [ident_C] at f1
    have f2 := flat (delimited cos0 (char ':') cos0) j
    have g2 : Low.C 0 (delimited cos0 (char ':') cos0) = 12 := rfl
    have : (separatedPair ident (delimited cos0 (char ':') cos0) v).deep i =
        max (ident.deep i) (max ((delimited cos0 (char ':') cos0).deep j) (v.deep k) + 2) + 1 := by
      show (pair ident _).deep i = _
      rw [pair_deep_some h3]
      show max _ ((pair _ _).deep j + 1) + 1 = _
      rw [pair_deep_some h5]
    have := valueC_eq
    omega
  have hend : ∀ x, (separatedPair ident (delimited cos0 (char ':') cos0) v).deep ('}' :: x) ≤ V + 3 := by
    intro x
    show (pair ident _).deep ('}' :: x) ≤ _
    rw [pair_deep_none (show ident.run ('}' :: x) = none from ident_none (by decide) (by decide) (by decide) x)]
    have f1 := flat ident ('}' :: x)
    rw [ident_C] at f1
    have := valueC_eq
    omega
  have hC : Low.C 0 (delimited cos0 (char ',') cos0) ≤ V + 3 := by
    rw [show Low.C 0 (delimited cos0 (char ',') cos0) = 12 from rfl]
    have := valueC_eq
    omega
  have := items_exact (c := '{') (d := '}') (by decide) hC hp hend h2
  dsimp only at this
  rw [nestPairs_big]
  show _ ≤ (pair docComment _).deep i ∧ (pair docComment _).deep i ≤ _
  rw [pair_deep_some h1]
  have := valueC_eq
  omega

theorem valueGo_exact : ∀ n, ValueExact valueC (valueGo n)
  | 0, _, _, _, e => by cases e
  | n + 1, i, r, a, e => by
    have f := flat single i
    rw [single_C] at f
    have hC := valueC_eq
    have a3 : (map single Value.single).deep i = single.deep i + 1 := rfl
    have a4 : (map (objectOf (valueGo n)) (fun x => Value.object x.2 x.1)).deep i = (objectOf (valueGo n)).deep i + 1 := rfl
    have a5 : (map (valueListOf (valueGo n)) Value.list).deep i = (valueListOf (valueGo n)).deep i + 1 := rfl
    unfold valueGo at e ⊢
    rcases Parse.alt_inv e with e | ⟨e0, e⟩
    · rw [alt_deep_some e]
      obtain ⟨x, -, rfl⟩ := Parse.map_inv e
      simp only [nestValue]
      omega
    rw [alt_deep_none e0]
    rcases Parse.alt_inv e with e | ⟨e1, e⟩
    · rw [alt_deep_some e]
      obtain ⟨x, e', rfl⟩ := Parse.map_inv e
      have := objectOf_exact (Nat.le_refl _) (valueGo_exact n) e'
      simp only [nestValue]
      omega
    · rw [alt_deep_none e1]
      obtain ⟨x, e', rfl⟩ := Parse.map_inv e
      have hi : ∃ y, i = '[' :: y := by
        obtain ⟨_, _, _, _, h, -⟩ := delimited_inv e'
        obtain ⟨_, _, h, -⟩ := terminated_inv h
        exact ⟨_, char_inv h⟩
      obtain ⟨y, rfl⟩ := hi
      have ho := objectOf_absent (v := valueGo n) (i := '[' :: y) (Timed.doc_stays rfl) (char_none (by decide) _)
      have hC' : Low.C 0 (delimited cos0 (char ',') cos0) ≤ valueC := by
        rw [valueC_eq, show Low.C 0 (delimited cos0 (char ',') cos0) = 12 from rfl]; decide
      have := items_exact (c := '[') (d := ']') (by decide) hC' (valueGo_exact n) (fun x => by have := valueGo_end n x; omega) e'
      have hd : (valueListOf (valueGo n)).deep ('[' :: y) = (delimited (terminated (char '[') cos0)
          (sepList0 (delimited cos0 (char ',') cos0) (valueGo n)) (preceded cos0 (char ']'))).deep ('[' :: y) := rfl
      simp only [nestValue, nestValues_big]
      omega

theorem value_exact : ValueExact (valueC + 1) value_ := by
  intro i r a e
  have := valueGo_exact (i.length + 1) i r a e
  show _ ≤ (valueGo (i.length + 1)).deep i + 1 ∧ (valueGo (i.length + 1)).deep i + 1 ≤ _
  omega

end Butte.Parse.Stack
