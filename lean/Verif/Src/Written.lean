import Verif.Src.Spellable
import Verif.Src.FullErase
/-
The generated tokens can be written, if the names of the tree can.
-/
set_option linter.unusedVariables false
namespace Butte.Src
open Ir (QIdent)
open Gen (formatIdent)
open Rs (pathTokens Lit)

@[simp] theorem spellable_nil : Spellable [] := nofun
@[simp] theorem spellable_cons {t : Tok} {ts : Toks} : Spellable (t :: ts) ↔ TokOk t ∧ Spellable ts := by simp [Spellable]
@[simp] theorem spellable_append {a b : Toks} : Spellable (a ++ b) ↔ Spellable a ∧ Spellable b := by
  simp only [Spellable, List.mem_append]
  exact ⟨fun h => ⟨fun t ht => h t (.inl ht), fun t ht => h t (.inr ht)⟩, fun h t ht => ht.elim (h.1 t) (h.2 t)⟩
theorem spellable_word {s : Str} : Spellable (ToTokens.toks s) ↔ wordOk s = true := by
  show Spellable [.ident s] ↔ _
  simp [TokOk]
theorem spellable_toks {ts : Toks} : Spellable (ToTokens.toks ts) ↔ Spellable ts := .rfl
theorem spellable_flatten {xs : List Toks} : Spellable xs.flatten ↔ ∀ x ∈ xs, Spellable x := by
  simp only [Spellable, List.mem_flatten]
  exact ⟨fun h x hx t ht => h t ⟨x, hx, ht⟩, fun h t ⟨x, hx, ht⟩ => h x hx t ht⟩
theorem spellable_sepCommas : ∀ {xs : List Toks}, Spellable (sepCommas xs) ↔ ∀ x ∈ xs, Spellable x
  | [] => by simp [sepCommas]
  | [x] => by simp [sepCommas]
  | x :: y :: xs => by
    have := spellable_sepCommas (xs := y :: xs)
    simp only [sepCommas, spellable_append, spellable_cons, this, List.forall_mem_cons, TokOk, true_and]
theorem spellable_endCommas {xs : List Toks} : Spellable (endCommas xs) ↔ ∀ x ∈ xs, Spellable x := by
  simp only [endCommas, Spellable, List.mem_flatMap]
  constructor
  · intro h x hx t ht
    exact h t ⟨x, hx, List.mem_append_left _ ht⟩
  · rintro h t ⟨x, hx, ht⟩
    rcases List.mem_append.mp ht with ht | ht
    · exact h x hx t ht
    · rw [List.mem_singleton.mp ht]; exact trivial

/-- Tokens of `quote!`. -/
macro "spell" : tactic => `(tactic| (
  try simp only [spellable_cons, spellable_append, spellable_word, spellable_toks, spellable_flatten, spellable_sepCommas, spellable_endCommas]
  and_intros
  all_goals first | exact trivial | exact spellable_nil | (show wordOk _ = true; decide) | assumption))

example {n : Str} (h : wordOk n = true) {xs : List Toks} (hx : ∀ x ∈ xs, Spellable x) :
    Spellable (quote! "impl<'a> #n { f(&self)? #(#xs),* }") := by spell

/-- Names begin as they should if `format_ident!` takes them. -/
theorem wordOk_of {s : Str} (h : s.all wordChar = true) {n : Str} (hf : formatIdent s = some n) : wordOk s = true := by
  unfold formatIdent at hf
  cases s with
  | nil => cases hf
  | cons c s =>
    simp only at hf
    split at hf
    · cases hf
    · rename_i hd
      simp only [List.all_cons, Bool.and_eq_true] at h
      simp only [wordOk, Bool.and_eq_true]
      refine ⟨?_, h.2⟩
      have := h.1
      unfold wordChar Char.isAlphanum at this
      unfold Lex.startChar
      revert this hd
      cases c.isDigit <;> simp

theorem wordOk_append {a b : Str} (ha : wordOk a = true) (hb : b.all wordChar = true) : wordOk (a ++ b) = true := by
  cases a with
  | nil => cases ha
  | cons c a =>
    simp only [wordOk, Bool.and_eq_true] at ha
    simp only [List.cons_append, wordOk, List.all_append, ha, hb, Bool.and_self]

theorem startChar_word {c : Char} (h : Lex.startChar c = true) : wordChar c = true := by
  unfold Lex.startChar at h
  unfold wordChar Char.isAlphanum
  revert h
  cases c.isAlpha <;> cases c == '_' <;> simp

theorem all_of_wordOk {s : Str} (h : wordOk s = true) : s.all wordChar = true := by
  cases s with
  | nil => rfl
  | cons c s =>
    simp only [wordOk, Bool.and_eq_true] at h
    simp [startChar_word h.1, List.all_eq_true.mp h.2]
    intro x hx
    exact List.all_eq_true.mp h.2 x hx

/-! ### Case conversion -/

theorem words_mem : ∀ (s acc : Str) (m : Heck.WordMode), ∀ w ∈ Heck.words s acc m, ∀ c ∈ w, c ∈ s ∨ c ∈ acc
  | [], acc, m, w, hw, c, hc => by simp [Heck.words] at hw
  | [a], acc, m, w, hw, c, hc => by
    unfold Heck.words at hw
    split at hw
    · simp [Heck.words] at hw
    · simp only [List.mem_singleton] at hw
      subst hw
      simpa [or_comm] using hc
  | a :: b :: s, acc, m, w, hw, c, hc => by
    unfold Heck.words at hw
    split at hw
    · rcases words_mem (b :: s) acc m w hw c hc with h | h
      · exact .inl (List.mem_cons_of_mem _ h)
      · exact .inr h
    · dsimp only at hw
      generalize (if a.isLower = true then Heck.WordMode.lower else if a.isUpper = true then Heck.WordMode.upper else m) = k at hw
      split at hw
      · rcases List.mem_cons.mp hw with rfl | hw
        · rcases List.mem_cons.mp (List.mem_reverse.mp hc) with rfl | h
          · exact .inl List.mem_cons_self
          · exact .inr h
        · rcases words_mem (b :: s) [] _ w hw c hc with h | h
          · exact .inl (List.mem_cons_of_mem _ h)
          · cases h
      · split at hw
        · rcases List.mem_cons.mp hw with rfl | hw
          · exact .inr (List.mem_reverse.mp hc)
          · rcases words_mem (b :: s) [a] _ w hw c hc with h | h
            · exact .inl (List.mem_cons_of_mem _ h)
            · rw [List.mem_singleton.mp h]; exact .inl List.mem_cons_self
        · rcases words_mem (b :: s) (a :: acc) _ w hw c hc with h | h
          · exact .inl (List.mem_cons_of_mem _ h)
          · rcases List.mem_cons.mp h with rfl | h
            · exact .inl List.mem_cons_self
            · exact .inr h

theorem joinWords_all {p : Char → Bool} (hp : p '_' = true) : ∀ {ws : List Str}, (∀ w ∈ ws, w.all p = true) → (Heck.joinWords ws).all p = true
  | [], _ => rfl
  | [w], h => h w List.mem_cons_self
  | w :: v :: ws, h => by
    have := joinWords_all hp (ws := v :: ws) fun x hx => h x (List.mem_cons_of_mem _ hx)
    simp only [Heck.joinWords, List.all_append, List.all_cons, this, hp, h w List.mem_cons_self, Bool.and_self]

theorem convert_all {f : Char → Char} (hf : ∀ c, wordChar c = true → wordChar (f c) = true) {s : Str} (h : s.all wordChar = true) :
    (Heck.joinWords ((Heck.words s [] .boundary).map (·.map f))).all wordChar = true := by
  refine joinWords_all (by decide) fun w hw => ?_
  obtain ⟨v, hv, rfl⟩ := List.mem_map.mp hw
  rw [List.all_eq_true]
  intro c hc
  obtain ⟨d, hd, rfl⟩ := List.mem_map.mp hc
  rcases words_mem s [] _ v hv d hd with h' | h'
  · exact hf d (List.all_eq_true.mp h d h')
  · cases h'

theorem wordChar_ascii {c : Char} (h : wordChar c = true) : c.toNat < 128 := by
  simp only [wordChar, Char.isAlphanum, Char.isAlpha, Char.isUpper, Char.isLower, Char.isDigit, Bool.or_eq_true, Bool.and_eq_true,
    decide_eq_true_eq, beq_iff_eq, ge_iff_le, UInt32.le_iff_toNat_le] at h
  rcases h with ((h | h) | h) | rfl
  · exact Nat.lt_of_le_of_lt h.2 (by decide)
  · exact Nat.lt_of_le_of_lt h.2 (by decide)
  · exact Nat.lt_of_le_of_lt h.2 (by decide)
  · decide

theorem wordChar_case : ∀ n < 128, wordChar (Char.ofNat n) = true →
    wordChar (Char.ofNat n).toLower = true ∧ wordChar (Char.ofNat n).toUpper = true := by decide

theorem wordChar_toLower (c : Char) (h : wordChar c = true) : wordChar c.toLower = true := by
  have := wordChar_case c.toNat (wordChar_ascii h)
  rw [Char.ofNat_toNat] at this
  exact (this h).1

theorem wordChar_toUpper (c : Char) (h : wordChar c = true) : wordChar c.toUpper = true := by
  have := wordChar_case c.toNat (wordChar_ascii h)
  rw [Char.ofNat_toNat] at this
  exact (this h).2

theorem snake_all {s : Str} (h : s.all wordChar = true) : (Heck.snake s).all wordChar = true := convert_all wordChar_toLower h
theorem shouty_all {s : Str} (h : s.all wordChar = true) : (Heck.shouty s).all wordChar = true := convert_all wordChar_toUpper h

theorem snake_word {s : Str} (h : s.all wordChar = true) {n : Str} (hf : formatIdent (Heck.snake s) = some n) :
    wordOk (Heck.snake s) = true := wordOk_of (snake_all h) hf

/-! ### What a tree must have -/

/-- Every segment is a name. -/
def SegWords (q : List Str) : Prop := ∀ s ∈ q, wordOk s = true

/-- The names of a field can be written, and a number is the default only of a field of a type of numbers. -/
structure FieldWords (ns : Option QIdent) (f : Ir.Field) : Prop where
  ident : wordOk f.ident = true
  paths : ∀ q ∈ Gen.tyPaths f.ty, SegWords (QIdent.relative q ns)
  dflt : ∀ i, f.default = some (.ident i) → wordOk i = true
  number : ∀ s, f.default = some (.scalar s) → (∃ b, s = .boolean b) ∨ ∃ b, f.ty = .builtin b ∧ b ≠ .bool
  union : ∀ q e vs, f.ty = .union q e vs → SegWords (QIdent.relative e ns) ∧
    ∀ v ∈ vs, wordOk v.ident = true ∧ ∀ q ∈ Gen.tyPaths v.ty, SegWords (QIdent.relative q ns)

/-- The names of a table can be written. -/
structure TableWords (t : Ir.Table) : Prop where
  name : wordOk (QIdent.simple t.ident) = true
  fields : ∀ f ∈ t.fields, FieldWords (QIdent.namespace t.ident) f

/-- The names of an enum can be written. -/
structure EnumWords (e : Ir.Enum) : Prop where
  name : wordOk (QIdent.simple e.ident) = true
  variants : ∀ v ∈ e.variants, wordOk v.ident = true

/-- The names of a union can be written. -/
structure UnionWords (u : Ir.Union) : Prop where
  name : wordOk (QIdent.simple u.ident) = true
  tag : SegWords (QIdent.relative u.enumIdent (QIdent.namespace u.ident))
  variants : ∀ v ∈ u.variants, wordOk v.ident = true ∧
    ∀ q ∈ Gen.tyPaths v.ty, SegWords (QIdent.relative q (QIdent.namespace u.ident))

mutual
/-- The names of a node can be written. -/
def NodeWords : Ir.Node → Prop
  | .table t => TableWords t
  | .enum e => EnumWords e
  | .union u => UnionWords u
  | .namespace i ns => wordOk (Heck.snake (QIdent.simple i)) = true ∧ TreeWords ns
  | .struct _ | .rpc _ => True
/-- All names of a tree can be written. -/
def TreeWords : List Ir.Node → Prop
  | [] => True
  | n :: ns => NodeWords n ∧ TreeWords ns
end

/-! ### Types -/

theorem builtin_spell (b : Ast.Builtin) : Spellable (Quote.builtin b) := by
  cases b <;> (unfold Quote.builtin; spell)

theorem refLifetime_spell {l : Toks} (h : Spellable l) : Spellable (Quote.refLifetime l) := by
  unfold Quote.refLifetime
  split
  · split
    · exact spellable_nil
    · exact h
  · exact spellable_nil

theorem printPath_spell : ∀ {p : List Str}, SegWords p → Spellable (printPath p)
  | [], _ => spellable_nil
  | [s], h => by simpa [printPath, TokOk] using h s List.mem_cons_self
  | s :: t :: p, h => by
    have := printPath_spell (p := t :: p) fun x hx => h x (List.mem_cons_of_mem _ hx)
    simp only [printPath, spellable_cons, this, and_true]
    exact ⟨h s List.mem_cons_self, trivial⟩

theorem path_spell {q : QIdent} {ts : Toks} (h : SegWords q) (hp : Quote.path q = some ts) : Spellable ts := by
  simp only [Quote.path, Option.map_eq_some_iff] at hp
  obtain ⟨p, hp, rfl⟩ := hp
  rw [(pathTokens_some hp).1]
  exact printPath_spell h

theorem ite_spell {c : Prop} [Decidable c] {a b : Toks} (ha : Spellable a) (hb : Spellable b) : Spellable (if c then a else b) := by
  split <;> assumption

theorem typeToken_spell {ns : Option QIdent} : ∀ {ty : Ir.Ty} {l w : Toks} {o : Bool} {ts : Toks},
    (∀ q ∈ Gen.tyPaths ty, SegWords (QIdent.relative q ns)) → Spellable l → Spellable w →
    Quote.typeToken ns ty l w o = some ts → Spellable ts
  | .builtin b, _, _, _, _, _, _, _, h => by
    simp only [Quote.typeToken, Option.some.injEq] at h
    rw [← h]; exact builtin_spell b
  | .string, l, w, o, ts, _, hl, hw, h => by
    simp only [Quote.typeToken, Option.some.injEq] at h
    rw [← h]
    have := refLifetime_spell hl
    exact ite_spell (by spell) (by spell)
  | .array t, l, w, o, ts, hq, hl, hw, h => by
    simp only [Quote.typeToken, Option.bind_eq_bind, Option.bind_eq_some_iff, Option.pure_def, Option.some.injEq] at h
    obtain ⟨c, hc, rfl⟩ := h
    have := typeToken_spell (ty := t) hq hl (by spell) hc
    exact ite_spell (by spell) (by spell)
  | .table q, l, w, o, ts, hq, hl, hw, h => by
    simp only [Quote.typeToken, Option.bind_eq_bind, Option.bind_eq_some_iff, Option.pure_def, Option.some.injEq] at h
    obtain ⟨c, hc, rfl⟩ := h
    have := path_spell (hq q (by simp [Gen.tyPaths])) hc
    have := refLifetime_spell hl
    exact ite_spell (by spell) (by spell)
  | .union q _ _, l, w, o, ts, hq, hl, hw, h => by
    simp only [Quote.typeToken, Option.bind_eq_bind, Option.bind_eq_some_iff, Option.pure_def, Option.some.injEq] at h
    obtain ⟨c, hc, rfl⟩ := h
    have := path_spell (hq q (by simp [Gen.tyPaths])) hc
    exact ite_spell (by spell) (by spell)
  | .struct q _, l, w, o, ts, hq, hl, hw, h => by
    simp only [Quote.typeToken, Option.bind_eq_bind, Option.bind_eq_some_iff, Option.pure_def, Option.some.injEq] at h
    obtain ⟨c, hc, rfl⟩ := h
    have := path_spell (hq q (by simp [Gen.tyPaths])) hc
    spell
  | .enum q _ _, l, w, o, ts, hq, hl, hw, h => by
    simp only [Quote.typeToken, Option.bind_eq_bind, Option.bind_eq_some_iff, Option.pure_def, Option.some.injEq] at h
    obtain ⟨c, hc, rfl⟩ := h
    have := path_spell (hq q (by simp [Gen.tyPaths])) hc
    spell

/-! ### Values -/

/-- A type of numbers, as the suffix of a number. -/
theorem builtin_suffix {b : Ast.Builtin} (hb : b ≠ .bool) {s : Str} (h : Quote.suffix (Quote.builtin b) = some s) : suffixWord s = true := by
  cases b <;> first | exact absurd rfl hb | (cases h; decide)

theorem sub_sign {b : Fin (2 ^ 64)} (h : 2 ^ 63 ≤ b.val) : (b - 2 ^ 63).val = b.val - 2 ^ 63 := by
  have hb := b.isLt
  have : ((2 : Fin (2 ^ 64)) ^ 63).val = 2 ^ 63 := by decide +kernel
  rw [Fin.sub_def]
  simp only [this]
  omega

theorem printLit_spell {l : Lit} (h : ∀ i s, l = .int i s → suffixWord s = true)
    (h' : ∀ b s, l = .float b s → suffixWord s = true ∧ f64Finite b.val = true) : Spellable (printLit l) := by
  cases l with
  | int i s =>
    have := h i s rfl
    unfold printLit
    dsimp only
    split <;> simp [TokOk, this]
  | float b s =>
    obtain ⟨h1, h2⟩ := h' b s rfl
    unfold printLit
    dsimp only
    split
    · rename_i hb
      have e := sub_sign hb
      have hlt := b.isLt
      refine spellable_cons.mpr ⟨trivial, spellable_cons.mpr ⟨⟨h1, ?_, by rw [e]; omega⟩, spellable_nil⟩⟩
      rw [e]
      unfold f64Finite at h2 ⊢
      rw [show (b.val - 2 ^ 63) % 2 ^ 63 = b.val % 2 ^ 63 by omega]
      exact h2
    · rename_i hb
      exact spellable_cons.mpr ⟨⟨h1, h2, by omega⟩, spellable_nil⟩
  | bool b => cases b <;> exact spellable_cons.mpr ⟨(by decide : wordOk _ = true), spellable_nil⟩
  | str s => exact spellable_cons.mpr ⟨trivial, spellable_nil⟩

theorem fmtLit_spell {s : Ast.Scalar} {ty : Toks} {l : Lit} (h : Quote.fmtLit s ty = some l)
    (hs : (∃ b, s = .boolean b) ∨ ∀ w, Quote.suffix ty = some w → suffixWord w = true) : Spellable (printLit l) := by
  cases s with
  | integer i =>
    simp only [Quote.fmtLit, Option.bind_eq_bind, Option.bind_eq_some_iff, Option.pure_def, Option.some.injEq] at h
    obtain ⟨w, hw, rfl⟩ := h
    rcases hs with ⟨b, hb⟩ | hs
    · cases hb
    · exact printLit_spell (by rintro i s ⟨⟩; exact hs w hw) nofun
  | float x =>
    simp only [Quote.fmtLit, Option.bind_eq_bind, Option.bind_eq_some_iff] at h
    obtain ⟨w, hw, h⟩ := h
    split at h
    · rename_i hf
      cases h
      rcases hs with ⟨b, hb⟩ | hs
      · cases hb
      · refine printLit_spell nofun ?_
        rintro b s ⟨⟩
        simp only [Bool.and_eq_true] at hf
        exact ⟨hs w hw, hf.1⟩
    · cases h
  | boolean b =>
    cases h
    exact printLit_spell nofun nofun

theorem formatIdent_word {s n : Str} (h : wordOk s = true) (hf : formatIdent s = some n) : wordOk n = true := by
  rwa [Gen.formatIdent_eq hf]

theorem defaultValue_spell {ty : Toks} {d : Ast.DefaultValue} {ts : Toks} (h : Quote.defaultValue ty d = some ts) (ht : Spellable ty)
    (hs : ∀ s, d = .scalar s → (∃ b, s = .boolean b) ∨ ∀ w, Quote.suffix ty = some w → suffixWord w = true)
    (hi : ∀ i, d = .ident i → wordOk i = true) : Spellable ts := by
  cases d with
  | scalar s =>
    simp only [Quote.defaultValue, Option.bind_eq_bind, Option.bind_eq_some_iff, Option.pure_def, Option.some.injEq] at h
    obtain ⟨l, hl, rfl⟩ := h
    exact fmtLit_spell hl (hs s rfl)
  | ident i =>
    simp only [Quote.defaultValue, Option.bind_eq_bind, Option.bind_eq_some_iff, Option.pure_def, Option.some.injEq] at h
    obtain ⟨v, hv, rfl⟩ := h
    have := formatIdent_word (hi i rfl) hv
    spell

/-- The suffix of a field with a number for its default. -/
theorem number_suffix {ns ns' : Option QIdent} {f : Ir.Field} (h : FieldWords ns f) {l w : Toks} {o : Bool} {ty : Toks}
    (ht : Quote.typeToken ns' f.ty l w o = some ty) (s : Ast.Scalar) (hd : f.default = some (.scalar s)) :
    (∃ b, s = .boolean b) ∨ ∀ w, Quote.suffix ty = some w → suffixWord w = true := by
  rcases h.number s hd with hb | ⟨b, hb, hn⟩
  · exact .inl hb
  · right
    intro x hx
    rw [hb] at ht
    simp only [Quote.typeToken, Option.some.injEq] at ht
    subst ht
    exact builtin_suffix hn hx

theorem comment_spell (d : Ast.Comment) : Spellable (Quote.comment d) := by
  unfold Quote.comment
  generalize d.reverse = l
  suffices h : ∀ (l : List Str) (a : Toks), Spellable a →
      Spellable (l.foldl (fun docs l => let line : Toks := [.str l]; quote! "#[doc = #line] #docs") a) from h l _ spellable_nil
  intro l
  induction l with
  | nil => exact fun a h => h
  | cons x l ih =>
    intro a h
    refine ih _ ?_
    spell

theorem defaultValueDoc_spell [FloatText] {ty : Ir.Ty} {d : Option Ast.DefaultValue} {ts : Toks}
    (h : Quote.defaultValueDoc ty d = some ts) : Spellable ts := by
  cases d with
  | none => cases h; exact spellable_nil
  | some d =>
    simp only [Quote.defaultValueDoc, Option.bind_eq_bind, Option.bind_eq_some_iff, Option.pure_def, Option.some.injEq] at h
    obtain ⟨v, -, rfl⟩ := h
    spell

theorem allowTypeComplexity_spell (ty : Ir.Ty) : Spellable (Quote.allowTypeComplexity ty) := by
  unfold Quote.allowTypeComplexity
  exact ite_spell (by spell) (by spell)

theorem add_word {f : Ir.Field} (h : wordOk f.ident = true) : wordOk (c!"add_" ++ f.ident) = true :=
  wordOk_append (by decide) (all_of_wordOk h)

theorem offsetId_word {f : Ir.Field} (h : wordOk f.ident = true) : wordOk (Quote.offsetId f) = true :=
  wordOk_append (a := c!"VT_") (by decide) (shouty_all (all_of_wordOk h))

/-! ### Fields -/

theorem builderAddCall_spell {ns : Option QIdent} {f : Ir.Field} (h : FieldWords ns f) : Spellable (Quote.builderAddCall f) := by
  have h1 := h.ident
  have h2 := add_word h1
  unfold Quote.builderAddCall
  exact ite_spell (by spell) (by spell)

theorem argTy_spell {ns : Option QIdent} {f : Ir.Field} (h : FieldWords ns f) {l ts : Toks} (hl : Spellable l)
    (ht : Quote.argTy ns f.ty l = some ts) : Spellable ts := by
  unfold Quote.argTy at ht
  split at ht
  · cases ht; spell
  · exact typeToken_spell h.paths hl (by spell) ht

theorem argsField_spell [FloatText] {ns : Option QIdent} {f : Ir.Field} (h : FieldWords ns f) {ts : Toks}
    (ht : Quote.argsField ns f = some ts) : Spellable ts := by
  simp only [Quote.argsField, Option.bind_eq_bind, Option.bind_eq_some_iff, Option.pure_def, Option.some.injEq] at ht
  obtain ⟨ty, hty, d, hd, rfl⟩ := ht
  have h1 := argTy_spell h (by spell) hty
  have h2 := defaultValueDoc_spell hd
  have h3 := allowTypeComplexity_spell f.ty
  have h4 : Spellable (if (f.required || f.ty.isScalar) = true then ty else quote! "Option<#ty>") := ite_spell h1 (by spell)
  have h5 := h.ident
  spell

theorem argsLifetime_spell {fs : List Ir.Field} {l : Toks} (hl : Spellable l) : Spellable (Quote.argsLifetime fs l) := by
  unfold Quote.argsLifetime
  exact ite_spell (by spell) (by spell)

theorem argsFieldDefault_spell {ns : Option QIdent} {f : Ir.Field} (h : FieldWords ns f) {ts : Toks}
    (ht : Quote.argsFieldDefault ns f = some ts) : Spellable ts := by
  have h1 := h.ident
  simp only [Quote.argsFieldDefault, Option.bind_eq_bind, Option.bind_eq_some_iff] at ht
  obtain ⟨ty, hty, ht⟩ := ht
  have h2 := typeToken_spell h.paths (by spell) (by spell) hty
  split at ht
  · cases ht; spell
  · split at ht
    · rename_i d hd
      split at ht
      · split at ht
        · simp only [Option.bind_eq_some_iff, Option.some.injEq] at ht
          obtain ⟨n, hn, rfl⟩ := ht
          have h3 := formatIdent_word (h.dflt _ hd) hn
          spell
        · cases ht
      · split at ht
        · simp only [Option.bind_eq_some_iff, Option.some.injEq] at ht
          obtain ⟨l, hl, rfl⟩ := ht
          have h3 := fmtLit_spell hl (number_suffix h hty _ hd)
          spell
        · cases ht
    · cases ht; spell

theorem mapM_spell {α β : Type} {p : β → Prop} {f : α → Option β} {xs : List α} {ys : List β} (h : xs.mapM f = some ys)
    (hp : ∀ x ∈ xs, ∀ y, f x = some y → p y) : ∀ y ∈ ys, p y := by
  induction xs generalizing ys with
  | nil => cases h; nofun
  | cons x xs ih =>
    simp only [List.mapM_cons, Option.bind_eq_bind, Option.bind_eq_some_iff, Option.pure_def, Option.some.injEq] at h
    obtain ⟨y, hy, zs, hz, rfl⟩ := h
    intro z hz'
    rcases List.mem_cons.mp hz' with rfl | hz'
    · exact hp x List.mem_cons_self _ hy
    · exact ih hz (fun x hx => hp x (List.mem_cons_of_mem _ hx)) z hz'

theorem argsDefaultImpl_spell {ns : Option QIdent} {args : Str} {l : Toks} {fs : List Ir.Field} (h : ∀ f ∈ fs, FieldWords ns f)
    (ha : wordOk args = true) (hl : Spellable l) {ts : Toks} (ht : Quote.argsDefaultImpl ns args l fs = some ts) : Spellable ts := by
  unfold Quote.argsDefaultImpl at ht
  split at ht
  · simp only [Option.bind_eq_bind, Option.bind_eq_some_iff, Option.pure_def, Option.some.injEq] at ht
    obtain ⟨ds, hd, rfl⟩ := ht
    have := mapM_spell hd fun f hf y hy => argsFieldDefault_spell (h f hf) hy
    spell
  · cases ht; spell

theorem isScalar_builtin {b : Ast.Builtin} : Ir.Ty.isUnion (.builtin b) = false := rfl

theorem addBody_spell {ns : Option QIdent} {n : Str} {f : Ir.Field} (h : FieldWords ns f) (hn : wordOk n = true) {l ty ts : Toks}
    (hty : Quote.argTy ns f.ty l = some ty) (hs : Spellable ty) (ht : Quote.addBody n f ty = some ts) : Spellable ts := by
  have h1 := h.ident
  have h2 := offsetId_word h1
  unfold Quote.addBody at ht
  dsimp only at ht
  split at ht
  · split at ht
    · rename_i d hd
      simp only [Option.bind_eq_bind, Option.bind_eq_some_iff, Option.pure_def, Option.some.injEq] at ht
      obtain ⟨v, hv, rfl⟩ := ht
      have h3 : Spellable v := by
        refine defaultValue_spell hv hs (fun s e => ?_) fun i e => h.dflt i (by rw [hd, e])
        subst e
        rcases h.number s hd with hb | ⟨b, hb, hb'⟩
        · exact .inl hb
        · unfold Quote.argTy at hty
          rw [if_neg (by rw [hb]; simp [isScalar_builtin])] at hty
          exact number_suffix h hty s hd
      spell
    · cases ht; spell
  · cases ht; spell

theorem builderFieldMethod_spell {ns : Option QIdent} {n : Str} {f : Ir.Field} (h : FieldWords ns f) (hn : wordOk n = true) {ts : Toks}
    (ht : Quote.builderFieldMethod n ns f = some ts) : Spellable ts := by
  have h1 := h.ident
  have h2 := add_word h1
  have h3 := allowTypeComplexity_spell f.ty
  simp only [Quote.builderFieldMethod, Option.bind_eq_bind, Option.bind_eq_some_iff, Option.pure_def, Option.some.injEq] at ht
  obtain ⟨ty, hty, b, hb, rfl⟩ := ht
  have h4 := argTy_spell h (by spell) hty
  have h5 := addBody_spell h hn hty h4 hb
  spell

theorem fieldOffsetConstant_spell {gm : Mode} {i : Nat} {f : Ir.Field} (h : wordOk f.ident = true) {ts : Toks}
    (ht : Quote.fieldOffsetConstant gm i f = some ts) : Spellable ts := by
  have h2 := offsetId_word h
  simp only [Quote.fieldOffsetConstant, Option.bind_eq_bind, Option.bind_eq_some_iff, Option.pure_def, Option.some.injEq] at ht
  obtain ⟨s, -, rfl⟩ := ht
  have h3 : TokOk (.int s.val c!"u16") := (by decide : suffixWord c!"u16" = true)
  spell

theorem requiredArm_spell {ns : Option QIdent} {n : Str} {f : Ir.Field} (hf : wordOk f.ident = true) (hn : wordOk n = true) {a u e : Toks}
    (ha : Spellable a) (hu : Spellable u) (he : Spellable e) {v : Ir.UnionVariant}
    (hv : wordOk v.ident = true ∧ ∀ q ∈ Gen.tyPaths v.ty, SegWords (QIdent.relative q ns)) {ts : Toks}
    (ht : Quote.requiredArm n ns f a u e v = some ts) : Spellable ts := by
  have h2 := offsetId_word hf
  simp only [Quote.requiredArm, Option.bind_eq_bind, Option.bind_eq_some_iff, Option.pure_def, Option.some.injEq] at ht
  obtain ⟨ty, hty, i, hi, rfl⟩ := ht
  have h3 := typeToken_spell hv.2 (by spell) (by spell) hty
  have h4 := formatIdent_word hv.1 hi
  spell

theorem optionalArm_spell {ns : Option QIdent} {n : Str} {f : Ir.Field} (hf : wordOk f.ident = true) (hn : wordOk n = true) {u e : Toks}
    (hu : Spellable u) (he : Spellable e) {v : Ir.UnionVariant}
    (hv : wordOk v.ident = true ∧ ∀ q ∈ Gen.tyPaths v.ty, SegWords (QIdent.relative q ns)) {ts : Toks}
    (ht : Quote.optionalArm n ns f u e v = some ts) : Spellable ts := by
  have h2 := offsetId_word hf
  simp only [Quote.optionalArm, Option.bind_eq_bind, Option.bind_eq_some_iff, Option.pure_def, Option.some.injEq] at ht
  obtain ⟨ty, hty, i, hi, rfl⟩ := ht
  have h3 := typeToken_spell hv.2 (by spell) (by spell) hty
  have h4 := formatIdent_word hv.1 hi
  spell

theorem fieldAccessor_spell {ns : Option QIdent} {n : Str} {f : Ir.Field} (h : FieldWords ns f) (hn : wordOk n = true) {ts : Toks}
    (ht : Quote.fieldAccessor n ns f = some ts) : Spellable ts := by
  have h1 := h.ident
  have h2 := offsetId_word h1
  simp only [Quote.fieldAccessor, Option.bind_eq_bind, Option.bind_eq_some_iff] at ht
  obtain ⟨sn, hsn, r, hr, w, hw, d, hd, ht⟩ := ht
  have h3 := formatIdent_word (snake_word (all_of_wordOk h1) hsn) hsn
  have h4 := typeToken_spell h.paths (by spell) (by spell) hr
  have h5 := typeToken_spell h.paths (by spell) (by spell) hw
  have h6 : Spellable d := by
    unfold Quote.getDefault at hd
    split at hd
    · rename_i x he
      simp only [Option.bind_eq_bind, Option.bind_eq_some_iff, Option.pure_def, Option.some.injEq] at hd
      obtain ⟨v, hv, rfl⟩ := hd
      have := defaultValue_spell hv h5 (fun s e => number_suffix h hw s (by rw [he, e])) fun i e => h.dflt i (by rw [he, e])
      spell
    · cases hd; spell
  split at ht
  · rename_i q e vs hu
    obtain ⟨hes, hvs⟩ := h.union q e vs hu
    have hqs := h.paths q (by rw [hu]; simp [Gen.tyPaths])
    simp only [Quote.unionAccessor, Option.bind_eq_bind, Option.bind_eq_some_iff] at ht
    obtain ⟨u, hu', en, hen, tn, htn, ht⟩ := ht
    have h7 := path_spell hqs hu'
    have h8 := path_spell hes hen
    have h9 : wordOk tn = true := by
      have := snake_word (all_of_wordOk h1) hsn
      rw [Gen.formatIdent_eq htn]
      exact wordOk_append this (by decide)
    split at ht
    · simp only [Option.bind_eq_some_iff, Option.some.injEq] at ht
      obtain ⟨as, has, rfl⟩ := ht
      have h10 := mapM_spell has fun v hv y hy => requiredArm_spell h1 hn (by spell) h7 h8 (hvs v hv) hy
      spell
    · simp only [Option.bind_eq_some_iff, Option.some.injEq] at ht
      obtain ⟨as, has, rfl⟩ := ht
      have h10 := mapM_spell has fun v hv y hy => optionalArm_spell h1 hn h7 h8 (hvs v hv) hy
      spell
  · cases ht
    have h7 := comment_spell f.doc
    have h8 := allowTypeComplexity_spell f.ty
    unfold Quote.plainAccessor
    exact ite_spell (by spell) (by spell)

theorem requiredField_spell {n : Str} {f : Ir.Field} (h : wordOk f.ident = true) (hn : wordOk n = true) :
    Spellable (Quote.requiredField n f) := by
  have h2 := offsetId_word h
  unfold Quote.requiredField
  spell

/-! ### Items -/

theorem table_spell [FloatText] {gm : Mode} {t : Ir.Table} (h : TableWords t) {ts : Toks} (ht : Quote.table gm t = some ts) :
    Spellable ts := by
  simp only [Quote.table, Option.bind_eq_bind, Option.bind_eq_some_iff, Option.pure_def, Option.some.injEq] at ht
  obtain ⟨n, hn, -, -, af, haf, ad, had, bm, hbm, oc, hoc, fa, hfa, rfl⟩ := ht
  have w1 := formatIdent_word h.name hn
  have w2 : wordOk (n ++ c!"Args") = true := wordOk_append w1 (by decide)
  have w3 : wordOk (n ++ c!"Builder") = true := wordOk_append w1 (by decide)
  have a1 := mapM_spell haf fun f hf y hy => argsField_spell (h.fields f hf) hy
  have la : Spellable (Quote.argsLifetime t.fields (quote! "'a")) := argsLifetime_spell (by spell)
  have lb : Spellable (Quote.argsLifetime t.fields (quote! "'args")) := argsLifetime_spell (by spell)
  have a2 := argsDefaultImpl_spell h.fields w2 la had
  have a3 := mapM_spell hbm fun f hf y hy => builderFieldMethod_spell (h.fields f hf) w1 hy
  have a4 := mapM_spell hoc fun x hx y hy =>
    fieldOffsetConstant_spell (h.fields x.1 (List.mem_of_getElem? (List.mem_zipIdx_iff_getElem?.mp hx))).ident hy
  have a5 := mapM_spell hfa fun f hf y hy => fieldAccessor_spell (h.fields f hf) w1 hy
  have a6 : ∀ x ∈ (t.fields.filter (·.required)).map (Quote.requiredField n), Spellable x := by
    intro x hx
    obtain ⟨f, hf, rfl⟩ := List.mem_map.mp hx
    exact requiredField_spell (h.fields f (List.mem_of_mem_filter hf)).ident w1
  have a7 : ∀ x ∈ t.fields.map Quote.builderAddCall, Spellable x := by
    intro x hx
    obtain ⟨f, hf, rfl⟩ := List.mem_map.mp hx
    exact builderAddCall_spell (h.fields f hf)
  have a8 := comment_spell t.doc
  simp only [Quote.tableStruct, Quote.tableFrom, Quote.tableInto, Quote.tableCreate, Quote.tableAccess, Quote.tableFollow, Quote.tableFollowBuf,
    Quote.argsStruct, Quote.builderStruct, Quote.builderImpl]
  spell

theorem enumBase_spell (b : Ir.EnumBase) : Spellable (Quote.enumBase b) := by cases b <;> (unfold Quote.enumBase; spell)

theorem enumBase_suffix {b : Ir.EnumBase} {s : Str} (h : Quote.suffix (Quote.enumBase b) = some s) : suffixWord s = true := by
  cases b <;> (cases h; decide)

theorem enum_spell {e : Ir.Enum} (h : EnumWords e) {ts : Toks} (ht : Quote.enum e = some ts) : Spellable ts := by
  simp only [Quote.enum, Option.bind_eq_bind, Option.bind_eq_some_iff, Option.pure_def, Option.some.injEq] at ht
  obtain ⟨n, hn, vs, hvs, rfl⟩ := ht
  have w1 := formatIdent_word h.name hn
  have w2 : wordOk (c!"enum_name_" ++ Heck.snake n) = true := wordOk_append (by decide) (snake_all (all_of_wordOk w1))
  have hv := mapM_spell (p := fun x : Str × Toks × Toks => wordOk x.1 = true ∧ Spellable x.2.1 ∧ Spellable x.2.2) hvs fun x hx y hy => by
    simp only [Quote.variantAndScalar, Option.bind_eq_bind, Option.bind_eq_some_iff, Option.pure_def, Option.some.injEq] at hy
    obtain ⟨k, hk, l, hl, rfl⟩ := hy
    exact ⟨formatIdent_word (h.variants x.1 (List.mem_of_getElem? (List.mem_zipIdx_iff_getElem?.mp hx))) hk,
      fmtLit_spell hl (.inr fun w hw => enumBase_suffix hw), comment_spell _⟩
  have hm : ∀ g : Str × Toks × Toks → Toks, (∀ x, wordOk x.1 = true → Spellable x.2.1 → Spellable x.2.2 → Spellable (g x)) →
      ∀ y ∈ vs.map g, Spellable y := by
    intro g hg y hy
    obtain ⟨x, hx, rfl⟩ := List.mem_map.mp hy
    exact hg x (hv x hx).1 (hv x hx).2.1 (hv x hx).2.2
  have b1 := enumBase_spell e.base
  have b2 := comment_spell e.doc
  have m1 := hm (fun x => Quote.nameToString n x.1) fun x h1 h2 h3 => by unfold Quote.nameToString; spell
  have m2 := hm (Quote.fromBase n) fun x h1 h2 h3 => by unfold Quote.fromBase; spell
  have m3 := hm (Quote.toBase n) fun x h1 h2 h3 => by unfold Quote.toBase; spell
  have m4 := hm Quote.enumField fun x h1 h2 h3 => by unfold Quote.enumField; spell
  have m5 : Spellable (Quote.enumDefault n vs) := by
    cases vs with
    | nil => exact spellable_nil
    | cons x vs =>
      have := (hv x List.mem_cons_self).1
      unfold Quote.enumDefault
      spell
  simp only [Quote.enumItem, Quote.enumDefaultImpl, Quote.enumFollow, Quote.enumTryFrom, Quote.enumInto, Quote.enumPush, Quote.enumName]
  spell

theorem union_spell {u : Ir.Union} (h : UnionWords u) {ts : Toks} (ht : Quote.union u = some ts) : Spellable ts := by
  simp only [Quote.union, Option.bind_eq_bind, Option.bind_eq_some_iff, Option.pure_def, Option.some.injEq] at ht
  obtain ⟨n, hn, e, he, vs, hvs, rfl⟩ := ht
  have w1 := formatIdent_word h.name hn
  have w2 := path_spell h.tag he
  have m1 := mapM_spell (p := Spellable) hvs fun v hv y hy => by
    simp only [Quote.unionVariant, Option.bind_eq_bind, Option.bind_eq_some_iff, Option.pure_def, Option.some.injEq] at hy
    obtain ⟨i, hi, t, ht, rfl⟩ := hy
    have h1 := formatIdent_word (h.variants v hv).1 hi
    have h2 := typeToken_spell (h.variants v hv).2 (by spell) (by spell) ht
    have h3 := comment_spell v.doc
    spell
  have m2 : ∀ x ∈ u.variants.map (Quote.unionArm n e), Spellable x := by
    intro x hx
    obtain ⟨v, hv, rfl⟩ := List.mem_map.mp hx
    have := (h.variants v hv).1
    unfold Quote.unionArm
    spell
  have m3 := comment_spell u.doc
  simp only [Quote.unionItem, Quote.unionImpl]
  spell

mutual
theorem node_spell [FloatText] {gm : Mode} : ∀ {n : Ir.Node} {ts : Toks}, NodeWords n → Quote.node gm n = some ts → Spellable ts
  | .table t, ts, h, ht => by
    simp only [Quote.node] at ht; simp only [NodeWords] at h; exact table_spell h ht
  | .struct _, ts, h, ht => by simp [Quote.node] at ht
  | .enum e, ts, h, ht => by
    simp only [Quote.node] at ht; simp only [NodeWords] at h; exact enum_spell h ht
  | .union u, ts, h, ht => by
    simp only [Quote.node] at ht; simp only [NodeWords] at h; exact union_spell h ht
  | .rpc _, ts, h, ht => by
    simp only [Quote.node, Option.some.injEq] at ht; rw [← ht]; exact spellable_nil
  | .namespace i ns, ts, h, ht => by
    simp only [Quote.node, Option.bind_eq_bind, Option.bind_eq_some_iff, Option.pure_def, Option.some.injEq] at ht
    simp only [NodeWords] at h
    obtain ⟨m, hm, x, hx, rfl⟩ := ht
    have h1 := nodes_spell h.2 hx
    have h2 := formatIdent_word h.1 hm
    spell
theorem nodes_spell [FloatText] {gm : Mode} : ∀ {ns : List Ir.Node} {ts : Toks}, TreeWords ns → Quote.nodes gm ns = some ts → Spellable ts
  | [], ts, h, ht => by simp only [Quote.nodes, Option.some.injEq] at ht; rw [← ht]; exact spellable_nil
  | n :: ns, ts, h, ht => by
    simp only [Quote.nodes, Option.bind_eq_bind, Option.bind_eq_some_iff, Option.pure_def, Option.some.injEq] at ht
    simp only [TreeWords] at h
    obtain ⟨a, ha, b, hb, rfl⟩ := ht
    exact spellable_append.mpr ⟨node_spell h.1 ha, nodes_spell h.2 hb⟩
end

/-- Generated tokens can be written. -/
theorem tokens_spellable [FloatText] {gm : Mode} {out : List Ir.Node} {ts : Toks} (h : TreeWords out) (ht : tokens gm out = some ts) :
    Spellable ts := nodes_spell h ht

end Butte.Src
