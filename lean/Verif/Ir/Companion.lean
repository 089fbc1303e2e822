import Verif.Ir.Report
import Verif.Ir.HeckLemmas
/-
Union fields and the fields for their tags.
-/
namespace Butte.Ir
open Ast (Element)

set_option maxRecDepth 8000

/-! ### Names -/

theorem snake_fix {s : Str} (h : s ≠ c!"type") : Heck.snake (fixIdentifier s) = Heck.snake s := by
  unfold fixIdentifier
  cases e : substituteKeyword s with
  | none => rfl
  | some y =>
    unfold substituteKeyword at e
    split at e
    · rename_i hm
      cases e
      have hall : ∀ k ∈ [c!"as", c!"async", c!"await", c!"break", c!"const", c!"continue", c!"crate", c!"dyn", c!"else", c!"enum",
          c!"extern", c!"false", c!"fn", c!"for", c!"if", c!"impl", c!"in", c!"let", c!"loop", c!"match", c!"mod",
          c!"move", c!"mut", c!"pub", c!"ref", c!"return", c!"self", c!"Self", c!"static", c!"struct", c!"super",
          c!"trait", c!"true", c!"unsafe", c!"use", c!"where", c!"while",
          c!"abstract", c!"become", c!"box", c!"do", c!"final", c!"macro", c!"override", c!"priv", c!"typeof",
          c!"unsized", c!"virtual", c!"yield"], Heck.snake (k ++ ['_']) = Heck.snake k := by decide
      exact hall s hm
    · first
        | cases e
        | (rw [if_neg h] at e; cases e)

theorem fix_type_suffix (s : Str) : fixIdentifier (s ++ c!"_type") = s ++ c!"_type" := by
  have key : substituteKeyword (s ++ c!"_type") = none := by
    unfold substituteKeyword
    rw [if_neg, if_neg]
    · intro h
      have := congrArg List.length h
      simp at this
    · intro h
      have hall : ∀ k ∈ [c!"as", c!"async", c!"await", c!"break", c!"const", c!"continue", c!"crate", c!"dyn", c!"else", c!"enum",
          c!"extern", c!"false", c!"fn", c!"for", c!"if", c!"impl", c!"in", c!"let", c!"loop", c!"match", c!"mod",
          c!"move", c!"mut", c!"pub", c!"ref", c!"return", c!"self", c!"Self", c!"static", c!"struct", c!"super",
          c!"trait", c!"true", c!"unsafe", c!"use", c!"where", c!"while",
          c!"abstract", c!"become", c!"box", c!"do", c!"final", c!"macro", c!"override", c!"priv", c!"typeof",
          c!"unsized", c!"virtual", c!"yield"], ¬ c!"_type" <:+ k := by decide
      exact hall _ h ⟨s, rfl⟩
  rw [fixIdentifier, key]
  rfl

/-- When the accessor that a union field calls is that of the field made for its tag. -/
theorem tag_accessor_iff (s : Str) :
    Heck.snake (fixIdentifier (Heck.snake s ++ c!"_type")) = Heck.snake (fixIdentifier s) ++ c!"_type" ↔
      s ≠ c!"type" ∧ Heck.snake s ≠ [] := by
  rw [fix_type_suffix]
  constructor
  · intro h
    constructor
    · rintro rfl
      revert h; decide
    · intro h0
      by_cases hs : s = c!"type"
      · subst hs; revert h0; decide
      · rw [snake_fix hs, h0] at h
        revert h; decide
  · rintro ⟨h1, h2⟩
    rw [snake_fix h1]
    exact Heck.snake_suffix (w := c!"type") h2 ⟨by decide, by decide⟩

/-! ### The enum of a union -/

theorem all₂_map {α β γ : Type} {R : α → β → Prop} {f : α → γ} {g : β → γ} {l : List α} {l' : List β} (h : All₂ R l l')
    (hR : ∀ a b, R a b → f a = g b) : l.map f = l'.map g := by
  induction h with
  | nil => rfl
  | cons h _ ih => simp only [List.map_cons, hR _ _ h, ih]

theorem emits_tag {N : Names} {ns : Option Ast.QIdent} {el : Element} {g : List Node} (h : Emits N ns el g)
    {q e : QIdent} {vs : List UnionVariant} {n : Node} (hn : n ∈ g) (hd : n.defines = some (q, .union e vs)) :
    ∃ m ∈ g, m.defines = some (e, .enum (⟨c!"None", some 0, []⟩ :: vs.map fun v => ⟨v.ident, none, v.doc⟩) .ubyte) := by
  cases h with
  | union u ws h =>
    simp only [List.mem_cons, List.not_mem_nil, or_false] at hn
    rcases hn with rfl | rfl
    · simp [Node.defines] at hd
    · simp only [Node.defines, Option.some.injEq, Prod.mk.injEq, CustomType.union.injEq] at hd
      obtain ⟨_, rfl, rfl⟩ := hd
      refine ⟨_, List.mem_cons_self, ?_⟩
      have := all₂_map (f := fun v : Ast.EnumVariant => (⟨fixIdentifier v.id, none, v.doc⟩ : EnumVariant))
        (g := fun w : UnionVariant => (⟨w.ident, none, w.doc⟩ : EnumVariant)) h (by
          rintro a b ⟨ty, _, rfl⟩
          rfl)
      simp only [Node.defines, this]
  | _ => simp only [List.mem_singleton] at hn; subst hn; simp [Node.defines] at hd

theorem emits_tag_node {N : Names} {ns : Option Ast.QIdent} {el : Element} {g : List Node} (h : Emits N ns el g) {u : Union}
    (hn : Node.union u ∈ g) :
    Node.enum ⟨u.enumIdent, ⟨c!"None", some 0, []⟩ :: u.variants.map fun v => ⟨v.ident, none, v.doc⟩, .ubyte, u.doc⟩ ∈ g := by
  cases h with
  | union w ws h =>
    simp only [List.mem_cons, List.not_mem_nil, or_false, reduceCtorEq, false_or, Node.union.injEq] at hn
    subst hn
    have := all₂_map (f := fun v : Ast.EnumVariant => (⟨fixIdentifier v.id, none, v.doc⟩ : EnumVariant))
      (g := fun w : UnionVariant => (⟨w.ident, none, w.doc⟩ : EnumVariant)) h (by
        rintro a b ⟨ty, _, rfl⟩
        rfl)
    simp only [this, List.mem_cons, true_or]
  | _ => simp at hn

theorem defines_unique {items : List Node} (h : ((items.filterMap Node.defines).map (·.1)).Nodup) {n m : Node} (hn : n ∈ items)
    (hm : m ∈ items) {q : QIdent} {a b : CustomType} (ha : n.defines = some (q, a)) (hb : m.defines = some (q, b)) : a = b := by
  have h1 : (q, a) ∈ items.filterMap Node.defines := List.mem_filterMap.mpr ⟨n, hn, ha⟩
  have h2 : (q, b) ∈ items.filterMap Node.defines := List.mem_filterMap.mpr ⟨m, hm, hb⟩
  have := (List.nodup_map_iff_inj_on (List.Nodup.of_map _ h)).mp h _ h1 _ h2 rfl
  exact (Prod.mk.inj this).2

/-! ### Union fields -/

theorem fields_union {N : Names} {ns : Option Ast.QIdent} {fs : List Ast.Field} {gs : List Field} (h : FieldsMean N ns fs gs) :
    ∀ (i : Nat) id q e vs d req dc, gs[i]? = some ⟨id, .union q e vs, d, req, dc⟩ →
      ∃ f ∈ fs, id = fixIdentifier f.id ∧ (req = true ↔ MarkedRequired f) ∧ Means N ns f.ty (.union q e vs) ∧
        ∃ evs base, N.dfn e (.enum evs base) ∧ 0 < i ∧
          gs[i - 1]? = some ⟨fixIdentifier (Heck.snake f.id ++ c!"_type"), .enum e evs base, none, req, dc⟩ := by
  induction h with
  | nil => intro i id q e vs d req dc hg; simp at hg
  | @plain f fs ty r rq hq hm hu hr ih =>
    intro i id q e vs d req dc hg
    cases i with
    | zero =>
      simp only [List.getElem?_cons_zero, Option.some.injEq, FieldOf.mk.injEq] at hg
      obtain ⟨_, rfl, _⟩ := hg
      cases hu
    | succ i =>
      rw [List.getElem?_cons_succ] at hg
      obtain ⟨f', hf, h1, h2, h3, evs, base, h4, h5, h6⟩ := ih i id q e vs d req dc hg
      refine ⟨f', by simp [hf], h1, h2, h3, evs, base, h4, by omega, ?_⟩
      obtain ⟨j, rfl⟩ : ∃ j, i = j + 1 := ⟨i - 1, by omega⟩
      simpa using h6
  | @union f fs q' e' vs' evs base r rq hq hm he hr ih =>
    intro i id q e vs d req dc hg
    match i with
    | 0 =>
      simp only [List.getElem?_cons_zero, Option.some.injEq, FieldOf.mk.injEq, reduceCtorEq, false_and, and_false] at hg
    | 1 =>
      simp only [List.getElem?_cons_succ, List.getElem?_cons_zero, Option.some.injEq, FieldOf.mk.injEq, Ty.union.injEq] at hg
      obtain ⟨rfl, ⟨rfl, rfl, rfl⟩, _, rfl, rfl⟩ := hg
      exact ⟨f, by simp, rfl, hq, hm, evs, base, he, by omega, by simp⟩
    | i + 2 =>
      simp only [List.getElem?_cons_succ] at hg
      obtain ⟨f', hf, h1, h2, h3, evs, base, h4, h5, h6⟩ := ih i id q e vs d req dc hg
      refine ⟨f', by simp [hf], h1, h2, h3, evs, base, h4, by omega, ?_⟩
      obtain ⟨j, rfl⟩ : ∃ j, i = j + 1 := ⟨i - 1, by omega⟩
      simpa using h6

theorem means_union {N : Names} {ns : Option Ast.QIdent} {t : Ast.Ty} {q e : QIdent} {vs : List UnionVariant}
    (h : Means N ns t (.union q e vs)) : N.dfn q (.union e vs) := by
  generalize hty : Ty.union q e vs = ty at h
  cases h with
  | custom q' ct h =>
    cases ct <;> simp only [CustomType.ref, reduceCtorEq, Ty.union.injEq] at hty
    obtain ⟨rfl, rfl, rfl⟩ := hty
    exact h
  | _ => cases hty

/-- Every union field of the output stands behind the field for its tag. -/
theorem output_union {s : Ast.Schema} {out : List Node} (hb : build s = some (.ok out)) {path : List Ident} {t : Table}
    (ht : (path, Node.table t) ∈ itemsOf out) {i : Nat} {id : Ident} {q e : QIdent} {vs : List UnionVariant}
    {d : Option Ast.DefaultValue} {req : Bool} {dc : Ast.Comment}
    (hi : t.fields[i]? = some ⟨id, .union q e vs, d, req, dc⟩) :
    ∃ (decl : Ast.Product) (f : Ast.Field), .table decl ∈ s.elements ∧ f ∈ decl.fields ∧ id = fixIdentifier f.id ∧ 0 < i ∧
      t.fields[i - 1]? = some ⟨fixIdentifier (Heck.snake f.id ++ c!"_type"),
        .enum e (⟨c!"None", some 0, []⟩ :: vs.map fun v => ⟨v.ident, none, v.doc⟩) .ubyte, none, req, dc⟩ := by
  obtain ⟨c, hr, rfl⟩ := build_ok hb
  obtain ⟨groups, g1, g2, g3, _⟩ := run_outcome hr
  have hx := (holds_path g1 ht).1
  obtain ⟨g, hg, hxg⟩ := List.mem_flatten.mp hx
  obtain ⟨p, _, el, ns, hel, _, hem⟩ := all₂_right g2 hg
  have : ∃ decl fields root, el = .table decl ∧ t = ⟨nameIn ns decl.id, fields, root, decl.doc⟩ ∧
      FieldsMean ⟨TableName s.elements (NsOk s.elements), (Names.ofItems groups.flatten).dfn⟩ ns decl.fields fields := by
    cases hem with
    | table decl fields root h =>
      simp only [List.mem_singleton, Node.table.injEq] at hxg
      exact ⟨decl, fields, root, rfl, hxg, h⟩
    | union u ws h => simp at hxg
    | _ => simp at hxg
  obtain ⟨decl, fields, root, rfl, rfl, hf⟩ := this
  obtain ⟨f, hfm, h1, _, h3, evs, base, h4, h5, h6⟩ := fields_union hf i id q e vs d req dc hi
  obtain ⟨n, hn, hd⟩ := means_union h3
  obtain ⟨g', hg', hn'⟩ := List.mem_flatten.mp hn
  obtain ⟨_, _, _, _, _, _, hem'⟩ := all₂_right g2 hg'
  obtain ⟨m, hm, hmd⟩ := emits_tag hem' hn' hd
  obtain ⟨n₂, hn₂, hd₂⟩ := h4
  have := defines_unique g3 hn₂ (List.mem_flatten.mpr ⟨g', hg', hm⟩) hd₂ hmd
  simp only [CustomType.enum.injEq] at this
  obtain ⟨rfl, rfl⟩ := this
  exact ⟨decl, f, List.mem_of_getElem? hel, hfm, h1, h5, h6⟩

end Butte.Ir
