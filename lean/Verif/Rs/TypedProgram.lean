import Verif.Rs.TypedUnion
/-
The whole emitted program is well-typed.
-/
namespace Butte.Rs
open Ir (QIdent Node Ident itemsOf Translates)
open Gen (compileTable formatIdent formatIdent_eq GField)

/-! ### Names -/

section
variable {gm : Mode} {P : Program} {t : Ir.Table} {gs : List GField}

theorem legal_of_rustName {s : Str} (h : Gen.rustName s = true) : legalName s = true := by
  unfold Gen.rustName at h
  unfold legalName
  split at h
  · cases h
  · simp only [Bool.and_eq_true] at h ⊢
    exact h.1

theorem Compiled.accLegal (h : compileTable gm t = some gs) : ∀ f ∈ t.fields, legalName (Heck.snake f.ident) = true := by
  unfold compileTable at h
  split at h
  · rename_i hc
    simp only [Gen.namesOk, Bool.and_eq_true, decide_eq_true_eq, List.all_eq_true, List.mem_map, forall_exists_index, and_imp,
      forall_apply_eq_imp_iff₂] at hc
    obtain ⟨⟨⟨⟨⟨h1, h2⟩, h3⟩, h4⟩, h5⟩, h6⟩ := hc
    exact fun f hf => legal_of_rustName (h4 f hf)
  · cases h

theorem legal_cons {c : Char} {s : Str} (h1 : c.isDigit = false) (h2 : c :: s ∉ Gen.rustKeywords) (h3 : c :: s ≠ c!"_") :
    legalName (c :: s) = true := by
  simp only [legalName, h1, Bool.not_false, Bool.true_and, Bool.and_eq_true, decide_eq_true_eq]
  exact ⟨h2, h3⟩

/-- Names that begin with a capital `V` or with `add_` are no keywords. -/
theorem legal_offset (f : Ir.Field) : legalName (offsetId f) = true := by
  have h1 : ∀ k ∈ Gen.rustKeywords, k.head? ≠ some 'V' := by decide
  exact legal_cons (by decide) (fun h => h1 _ h rfl) (by simp)

theorem legal_add (f : Ir.Field) : legalName (addName f) = true := by
  have h1 : ∀ k ∈ Gen.rustKeywords, k.take 4 ≠ c!"add_" := by decide
  exact legal_cons (by decide) (fun h => h1 _ h rfl) (by simp)

/-- The names that a table declares. -/
theorem Setting.table_names {E : List Ast.Element} {out : List Node} (S : Setting gm E out P) {p : List Ident}
    (hx : (p, Node.table t) ∈ itemsOf out) (hc : compileTable gm t = some gs)
    (hl : ∀ i ∈ P.names, legalName i.name = true) {items : List Item} (hi : emitTable gm t = some items) {x : Item}
    (hm : x ∈ items) : ∀ n ∈ x.idents, legalName n = true := by
  have A := S.tableAt hx hc
  obtain ⟨args, dflt, adds, consts, accs, -, -, h1, h2, h3, h4, h5, rfl⟩ := emitTable_eq hi
  have k1 := hl _ A.own
  have k2 := hl _ A.ownArgs
  have k3 := hl _ A.ownBuilder
  simp only at k1 k2 k3
  have hids : ∀ f ∈ t.fields, legalName f.ident = true := fun f hf => legal_of_rustName (A.usable f hf)
  simp only [tableItems, List.mem_append, List.mem_cons, List.not_mem_nil, or_false] at hm
  rcases hm with ((rfl | rfl | rfl | rfl | rfl | rfl | rfl | rfl) | hm) | rfl | rfl
  · simp only [tableStruct, Item.idents, List.map_cons, List.map_nil, List.cons_append, List.nil_append, List.mem_cons,
      List.not_mem_nil, or_false]
    rintro n (rfl | rfl | rfl)
    · exact k1
    · decide
    · decide
  · simp only [tableFrom, Item.idents, Fn.idents, fromTableFn, List.map_cons, List.map_nil, List.append_nil, List.flatMap_cons,
      List.flatMap_nil]
    decide
  · simp only [tableInto, Item.idents, Fn.idents, List.map_cons, List.map_nil, List.append_nil, List.flatMap_cons,
      List.flatMap_nil]
    decide
  · intro n hn
    simp only [tableCreate, Item.idents, List.nil_append, List.flatMap_cons, List.flatMap_nil, List.append_nil, Fn.idents,
      createFn, List.mem_append, consts_names h4, List.map_cons, List.map_nil] at hn
    rcases hn with hn | hn
    · obtain ⟨f, -, rfl⟩ := List.mem_map.mp hn
      exact legal_offset f
    · revert n
      decide
  · intro n hn
    simp only [tableAccess, Item.idents, List.map_nil, List.append_nil, List.flatMap_append, List.flatMap_cons, List.flatMap_nil,
      List.mem_append, List.mem_flatMap] at hn
    rcases hn with hn | ⟨g, hg, hn⟩ | hn
    · revert n
      decide
    · obtain ⟨f, hf, hfa⟩ := forall₂_right (mapM_forall₂ h5) g hg
      have hname := accessor_name hfa
      simp only [Rs.accessor, Option.bind_eq_bind, Option.bind_eq_some_iff, Option.pure_def, Option.some.injEq] at hfa
      obtain ⟨snake, hs, r, hr, w, hw, dflt, hd, body, hb, rfl⟩ := hfa
      simp only [Fn.idents, selfParam, List.map_cons, List.map_nil, ne_eq, decide_not, List.mem_cons] at hn
      rcases hn with rfl | hn
      · simp only at hname
        rw [hname]
        exact Compiled.accLegal hc f hf
      · simp at hn
    · revert n
      decide
  · rw [tableFollow]
    simp only [Item.idents, List.map_nil, List.append_nil, List.flatMap_cons, List.flatMap_nil]
    decide
  · rw [tableFollowBuf]
    simp only [Item.idents, List.map_nil, List.append_nil, List.flatMap_cons, List.flatMap_nil]
    decide
  · intro n hn
    simp only [Item.idents, List.append_nil, List.mem_append, List.mem_cons, List.not_mem_nil, or_false] at hn
    rcases hn with rfl | hn
    · exact k2
    · rw [map_of_forall₂ (fun a b => argField_name (f := a) (a := b)) (mapM_forall₂ h1)] at hn
      obtain ⟨f, hf, rfl⟩ := List.mem_map.mp hn
      exact hids f hf
  · rcases h2 with ⟨_, rfl⟩ | ⟨hc, ds, hds, rfl⟩
    · cases hm
    · rw [List.mem_singleton] at hm
      subst hm
      simp only [argsDefault, Item.idents, List.map_nil, List.append_nil, List.flatMap_cons, List.flatMap_nil, Fn.idents, defaultFn]
      decide
  · intro n hn
    simp only [builderStruct, Item.idents, List.append_nil, List.mem_append, List.mem_cons, List.not_mem_nil, or_false,
      List.map_cons, List.map_nil] at hn
    rcases hn with rfl | rfl | rfl
    · exact k3
    · decide
    · decide
  · intro n hn
    simp only [builderImpl, Item.idents, List.map_nil, List.append_nil, List.nil_append, List.flatMap_append, List.flatMap_cons,
      List.flatMap_nil, List.mem_append, List.mem_flatMap] at hn
    rcases hn with ⟨g, hg, hn⟩ | hn | hn
    · obtain ⟨f, hf, hfa⟩ := forall₂_right (mapM_forall₂ h3) g hg
      simp only [addMethod, Option.bind_eq_bind, Option.bind_eq_some_iff, Option.pure_def, Option.some.injEq] at hfa
      obtain ⟨w, hw, body, hb, rfl⟩ := hfa
      simp only [Fn.idents, selfParam, List.map_cons, List.map_nil, List.mem_cons, List.mem_filter, List.not_mem_nil, or_false] at hn
      rcases hn with rfl | ⟨rfl | rfl, h⟩
      · exact legal_add f
      · simp at h
      · exact hids f hf
    · revert n
      simp only [Fn.idents, newFn]
      decide
    · revert n
      simp only [Fn.idents, finishFn]
      decide

/-- The names that an enum declares. -/
theorem enum_names {e : Ir.Enum} (hl : ∀ i ∈ P.names, legalName i.name = true) (hv : ∀ v ∈ e.variants, legalName v.ident = true)
    {m : List Str} {items : List Item} (hi : emitEnum e = some items) (hp : Placed P m items) {x : Item}
    (hm : x ∈ items) : ∀ n ∈ x.idents, legalName n = true := by
  obtain ⟨vl, -, hv', rfl⟩ := emitEnum_eq hi
  have own := hl _ (hp.mem_names (s := .type) (n := QIdent.simple e.ident)
    ⟨.enum (QIdent.simple e.ident) (baseName e.base) vl, by simp [enumItems], rfl⟩)
  have fn := hl _ (hp.mem_names (s := .value) (n := c!"enum_name_" ++ Heck.snake (QIdent.simple e.ident))
    ⟨.fn (enumNameFn (QIdent.simple e.ident) vl), by simp [enumItems], rfl⟩)
  simp only at own fn
  simp only [enumItems, List.mem_cons, List.not_mem_nil, or_false] at hm
  rcases hm with rfl | rfl | rfl | rfl | rfl | rfl | rfl
  · intro n hn
    simp only [Item.idents, List.mem_cons] at hn
    rcases hn with rfl | hn
    · exact own
    · rw [variantLit_idents hv'] at hn
      obtain ⟨v, h, rfl⟩ := List.mem_map.mp hn
      exact hv v h
  · simp only [enumDefault, Item.idents, List.map_nil, List.append_nil, List.flatMap_cons, List.flatMap_nil, Fn.idents, enumDefaultFn]
    decide
  · simp only [enumFollow, Item.idents, List.map_nil, List.append_nil, List.flatMap_cons, List.flatMap_nil, Fn.idents, enumFollowFn]
    decide
  · simp only [enumTryFrom, Item.idents, List.map_nil, List.append_nil, List.flatMap_cons, List.flatMap_nil, Fn.idents, enumTryFromFn,
      List.map_cons]
    decide
  · simp only [enumInto, Item.idents, List.map_nil, List.append_nil, List.flatMap_cons, List.flatMap_nil, Fn.idents, enumIntoFn,
      List.map_cons]
    decide
  · simp only [enumPush, Item.idents, List.map_nil, List.append_nil, List.flatMap_cons, List.flatMap_nil, Fn.idents, enumPushFn]
    decide
  · intro n hn
    simp only [Item.idents, Fn.idents, enumNameFn, List.map_cons, List.map_nil, List.mem_cons] at hn
    rcases hn with rfl | hn
    · exact fn
    · revert n
      decide

/-- The names that a union declares. -/
theorem union_names {u : Ir.Union} (hl : ∀ i ∈ P.names, legalName i.name = true) (hv : ∀ v ∈ u.variants, legalName v.ident = true)
    {m : List Str} {items : List Item} (hi : emitUnion u = some items) (hp : Placed P m items) {x : Item}
    (hm : x ∈ items) : ∀ n ∈ x.idents, legalName n = true := by
  obtain ⟨es, us, -, h1, h2, rfl⟩ := emitUnion_eq hi
  have own := hl _ (hp.mem_names (s := .type) (n := QIdent.simple u.ident)
    ⟨.union (QIdent.simple u.ident) us, by simp [unionItems], rfl⟩)
  simp only at own
  have hnames : us.map (·.1) = u.variants.map (·.ident) :=
    map_of_forall₂ (fun a b h => unionVariant_name h) (mapM_forall₂ h2)
  simp only [unionItems, List.mem_cons, List.not_mem_nil, or_false] at hm
  rcases hm with rfl | rfl
  · intro n hn
    simp only [Item.idents, List.mem_cons] at hn
    rcases hn with rfl | hn
    · exact own
    · rw [hnames] at hn
      obtain ⟨v, h, rfl⟩ := List.mem_map.mp hn
      exact hv v h
  · simp only [Item.idents, List.map_nil, List.append_nil, List.flatMap_cons, List.flatMap_nil, Fn.idents, getTypeFn]
    decide

end

/-! ### All items -/

mutual
theorem emitNode_items (gm : Mode) (R : List Ident) : ∀ (n : Node) (P : Program), emitNode gm (R.map Heck.snake) n = some P →
    ∀ y ∈ P, (∃ m, y.2 = .mod m) ∨ ∃ x ∈ n.leaves R, ∃ Q, emitNode gm (x.1.map Heck.snake) x.2 = some Q ∧ y ∈ Q ∧
      ∀ i ns, x.2 ≠ .namespace i ns
  | .table _, P, h, y, hy | .struct _, P, h, y, hy | .enum _, P, h, y, hy | .union _, P, h, y, hy | .rpc _, P, h, y, hy => by
    exact .inr ⟨(R, _), by simp [Ir.Node.leaves], P, h, hy, by simp⟩
  | .namespace i ns, P, h, y, hy => by
    simp only [emitNode, Option.bind_eq_bind, Option.bind_eq_some_iff, Option.pure_def, Option.some.injEq] at h
    obtain ⟨m, hm, items, hi, rfl⟩ := h
    have := formatIdent_eq hm
    subst this
    rcases List.mem_cons.mp hy with rfl | hy
    · exact .inl ⟨_, rfl⟩
    · rcases emitNodes_items gm (R ++ [QIdent.simple i]) ns items (by simpa using hi) y hy with h | ⟨x, hx, h⟩
      · exact .inl h
      · exact .inr ⟨x, by simpa [Ir.Node.leaves] using hx, h⟩
theorem emitNodes_items (gm : Mode) (R : List Ident) : ∀ (ns : List Node) (P : Program),
    emitNodes gm (R.map Heck.snake) ns = some P →
    ∀ y ∈ P, (∃ m, y.2 = .mod m) ∨ ∃ x ∈ Node.leavesL R ns, ∃ Q, emitNode gm (x.1.map Heck.snake) x.2 = some Q ∧ y ∈ Q ∧
      ∀ i ns, x.2 ≠ .namespace i ns
  | [], P, h, y, hy => by
    simp only [emitNodes, Option.some.injEq] at h
    subst h
    cases hy
  | n :: ns, P, h, y, hy => by
    simp only [emitNodes, Option.bind_eq_bind, Option.bind_eq_some_iff, Option.pure_def, Option.some.injEq] at h
    obtain ⟨a, ha, b, hb, rfl⟩ := h
    rcases List.mem_append.mp hy with hy | hy
    · rcases emitNode_items gm R n a ha y hy with h | ⟨x, hx, h⟩
      · exact .inl h
      · exact .inr ⟨x, by simp [Ir.Node.leavesL, hx], h⟩
    · rcases emitNodes_items gm R ns b hb y hy with h | ⟨x, hx, h⟩
      · exact .inl h
      · exact .inr ⟨x, by simp [Ir.Node.leavesL, hx], h⟩
end

/-- What a schema must keep to, for the code to be accepted by the compiler, beyond what `Setting` says. -/
structure Acceptable (gm : Mode) (out : List Node) (P : Program) : Prop where
  /-- no type, module or function has a name that is a keyword -/
  names : ∀ i ∈ P.names, legalName i.name = true
  /-- tables -/
  tables : ∀ p t, (p, Node.table t) ∈ itemsOf out → ∃ gs, compileTable gm t = some gs
  /-- fields without a default, of an enum with a variant `default` -/
  defaults : ∀ p t, (p, Node.table t) ∈ itemsOf out → canDefault t.fields = true → ∀ f ∈ t.fields, ∀ q vs b,
    f.ty = .enum q vs b → f.default = none → c!"default" ∉ vs.map (·.ident)
  /-- enums -/
  values : ∀ p e, (p, Node.enum e) ∈ itemsOf out → ∃ xs, Gen.enumValues (Gen.enumBaseSTy e.base) e.variants = some xs
  /-- names of variants; `Self::Inner` and `Self::Error` are types -/
  variants : ∀ p e, (p, Node.enum e) ∈ itemsOf out → ∀ v ∈ e.variants, legalName v.ident = true ∧ v.ident ≠ c!"Inner" ∧
    v.ident ≠ c!"Error"
  /-- no union in a union -/
  flat : ∀ p u, (p, Node.union u) ∈ itemsOf out → ∀ v ∈ u.variants, ∀ q e vs, v.ty ≠ .union q e vs
  /-- a union needs its lifetime -/
  lifetimes : ∀ p u, (p, Node.union u) ∈ itemsOf out → ∃ v ∈ u.variants, (irTy v.ty).borrows = true

section
variable {gm : Mode} {E : List Ast.Element} {out : List Node} {P : Program}

theorem Setting.membersLead (S : Setting gm E out P) {p : List Ident} {t : Ir.Table} (hx : (p, Node.table t) ∈ itemsOf out) :
    MembersLead P t := by
  intro f hf q e vs hty v hv x hxp
  have hd := (table_defined S.translates hx).2 f hf
  rw [hty] at hd
  obtain ⟨⟨p', n⟩, hx', hd⟩ := hd
  cases n <;> simp only [Node.defines, Option.some.injEq, Prod.mk.injEq, reduceCtorEq, and_false, Ir.CustomType.union.injEq] at hd
  obtain ⟨rfl, rfl, rfl⟩ := hd
  exact S.leads_to hx' (List.mem_cons_of_mem _ (List.mem_flatMap.mpr ⟨v, hv, hxp⟩)) (.inl rfl) rfl

/-- Conditions under which the program is well-typed. -/
theorem Setting.wellTyped (S : Setting gm E out P) (A : Acceptable gm out P) : WellTyped P := by
  refine ⟨S.nodup, ?_⟩
  intro y hy
  have hem : emitNodes gm (([] : List Ident).map Heck.snake) out = some P := S.emitted
  rcases emitNodes_items gm [] out P hem y hy with ⟨m, hm⟩ | ⟨⟨p, n⟩, hx, Q, hQ, hyQ, hns⟩
  · refine ⟨?_, by rw [hm]; trivial⟩
    intro n hn
    rw [hm] at hn
    simp only [Item.idents, List.mem_singleton] at hn
    subst hn
    exact A.names ⟨y.1, .type, n⟩ (List.mem_filterMap.mpr ⟨y, hy, by rw [hm]; rfl⟩)
  · have hx : (p, n) ∈ itemsOf out := hx
    cases n with
    | «namespace» i ns => exact (hns i ns rfl).elim
    | rpc r =>
      simp only [emitNode, Option.some.injEq] at hQ
      subst hQ
      cases hyQ
    | struct s => simp [emitNode] at hQ
    | table t =>
      simp only [emitNode, Option.bind_eq_bind, Option.bind_eq_some_iff, Option.pure_def, Option.some.injEq] at hQ
      obtain ⟨items, hi, rfl⟩ := hQ
      obtain ⟨x, hxi, rfl⟩ := List.mem_map.mp hyQ
      obtain ⟨gs, hc⟩ := A.tables p t hx
      have e : p.map Heck.snake = modOf t.ident := S.path hx
      refine ⟨S.table_names hx hc A.names hi hxi, ?_⟩
      rw [e]
      exact S.table_items_ok hx hc (S.membersLead hx) (A.defaults p t hx) hi hxi
    | enum e =>
      simp only [emitNode, Option.bind_eq_bind, Option.bind_eq_some_iff, Option.pure_def, Option.some.injEq] at hQ
      obtain ⟨items, hi, rfl⟩ := hQ
      obtain ⟨x, hxi, rfl⟩ := List.mem_map.mp hyQ
      obtain ⟨xs, hv⟩ := A.values p e hx
      have he : p.map Heck.snake = modOf e.ident := S.path hx
      obtain ⟨items', hi', hp⟩ := emit_enum S.emitted hx
      rw [hi] at hi'
      cases hi'
      refine ⟨enum_names A.names (fun v hv => (A.variants p e hx v hv).1) hi hp hxi, ?_⟩
      rw [he]
      refine (S.enumAt hx hv).items_ok ?_ ?_ hi hxi
      · rintro hm
        obtain ⟨v, hv, he⟩ := List.mem_map.mp hm
        exact (A.variants p e hx v hv).2.1 he
      · rintro hm
        obtain ⟨v, hv, he⟩ := List.mem_map.mp hm
        exact (A.variants p e hx v hv).2.2 he
    | union u =>
      simp only [emitNode, Option.bind_eq_bind, Option.bind_eq_some_iff, Option.pure_def, Option.some.injEq] at hQ
      obtain ⟨items, hi, rfl⟩ := hQ
      obtain ⟨x, hxi, rfl⟩ := List.mem_map.mp hyQ
      have he : p.map Heck.snake = modOf u.ident := S.path hx
      obtain ⟨items', hi', hp⟩ := emit_union S.emitted hx
      rw [hi] at hi'
      cases hi'
      obtain ⟨⟨p', n⟩, hx', hd⟩ := (union_defined S.translates hx).2.2
      cases n <;> simp only [Node.defines, Option.some.injEq, Prod.mk.injEq, reduceCtorEq, and_false, Ir.CustomType.enum.injEq] at hd
      rename_i e
      obtain ⟨hq, hvs, hb⟩ := hd
      obtain ⟨xs, hv⟩ : ∃ xs, Gen.enumValues .u8 (tagVariants u) = some xs := by
        have := A.values p' e hx'
        rw [hvs, hb] at this
        exact this
      refine ⟨union_names A.names (fun v hv => ?_) hi hp hxi, ?_⟩
      · exact (A.variants p' e hx' ⟨v.ident, none, v.doc⟩ (by rw [hvs]; exact List.mem_cons_of_mem _ (List.mem_map.mpr ⟨v, hv, rfl⟩))).1
      rw [he]
      exact S.union_items_ok hx hv (A.flat p u hx) (A.lifetimes p u hx) hi hxi

end

end Butte.Rs
