import Verif.Rs.TypedProgram
/-
What follows for a schema when the program emitted for it is well-typed.
-/
namespace Butte.Rs
open Ir (QIdent Node Ident itemsOf Translates)
open Gen (compileTable formatIdent formatIdent_eq GField)

/-! ### Enums -/

theorem mapM_values {t : STy} {vs : List Ir.EnumVariant} {k : Nat} {vals : List (Str × SVal t)}
    (h : ((List.zipIdx vs k).map fun x => ((x.1.ident, .int (x.1.value.getD x.2) (primName t)) : Str × Lit)).mapM
      (fun v => do let x ← litVal t v.2; pure (v.1, x)) = some vals) :
    Gen.variantValues t k vs = some (vals.map (·.2)) ∧ vals.map (·.1) = vs.map (·.ident) := by
  induction vs generalizing k vals with
  | nil =>
    simp only [List.zipIdx_nil, List.map_nil, List.mapM_nil, Option.pure_def, Option.some.injEq] at h
    subst h
    exact ⟨rfl, rfl⟩
  | cons v vs ih =>
    simp only [List.zipIdx_cons, List.map_cons, List.mapM_cons, Option.bind_eq_bind, Option.bind_eq_some_iff, Option.pure_def,
      Option.some.injEq, litVal, if_true] at h
    obtain ⟨y, ⟨x, hx, rfl⟩, ys, hys, rfl⟩ := h
    obtain ⟨h1, h2⟩ := ih hys
    refine ⟨?_, by simp [h2]⟩
    simp only [Gen.variantValues, hx, h1, Option.bind_eq_bind, Option.bind_some, Option.pure_def, List.map_cons]

/-- An enum of the program that has an order of its values is one whose values can be computed. -/
theorem enumOf_values {P : Program} (hn : P.names.Nodup) {q : QIdent} {vs : List Ir.EnumVariant} {b : Ir.EnumBase}
    (ht : HasTy P (.enum q vs b)) (h : (enumOf P (modOf q) (QIdent.simple q)).isSome) (hne : vs ≠ []) :
    ∃ xs, Gen.enumValues (Gen.enumBaseSTy b) vs = some xs := by
  obtain ⟨vl, hv, hp⟩ := ht
  obtain ⟨⟨t, vals⟩, h⟩ := Option.isSome_iff_exists.mp h
  simp only [enumOf, enum_item hp hn, Option.bind_eq_bind, Option.bind_eq_some_iff] at h
  obtain ⟨t', ht', vals', hvals, h⟩ := h
  split at h
  · rename_i hc
    rw [baseName, primOf_primName] at ht'
    cases ht'
    rw [variantLit_names hv, baseName] at hvals
    obtain ⟨h1, h2⟩ := mapM_values hvals
    refine ⟨vals'.map (·.2), ?_⟩
    simp only [Gen.enumValues, h1, Option.bind_eq_bind, Option.bind_some]
    rw [if_neg]
    push Not
    exact ⟨hne, h2 ▸ hc.1, hc.2⟩
  · cases h

section
variable {gm : Mode} {E : List Ast.Element} {out : List Node} {P : Program}

/-- Where the items of a node are. -/
theorem WellTyped.placed (W : WellTyped P) {m : List Str} {items : List Item} (hp : Placed P m items) {x : Item} (hx : x ∈ items) :
    (∀ n ∈ x.idents, legalName n = true) ∧ ItemOk P m x := by
  obtain ⟨A, B, rfl, -, -⟩ := hp
  exact W.2 (m, x) (by simp [hx])

theorem WellTyped.names (W : WellTyped P) : ∀ i ∈ P.names, legalName i.name = true := by
  intro i hi
  obtain ⟨x, hx, h⟩ := List.mem_filterMap.mp hi
  have := (W.2 x hx).1
  cases hx2 : x.2 <;> rw [hx2] at h this <;> simp only [Item.introduces, Option.map_some, Option.map_none, Option.some.injEq, reduceCtorEq] at h <;>
    subst h <;> exact this _ (by simp [Item.idents, Fn.idents])

/-- `Self::Inner` and `Self::Error` must not be variants. -/
theorem Setting.enum_converse (S : Setting gm E out P) (W : WellTyped P) {p : List Ident} {e : Ir.Enum}
    (hx : (p, Node.enum e) ∈ itemsOf out) : (∃ xs, Gen.enumValues (Gen.enumBaseSTy e.base) e.variants = some xs) ∧
      ∀ v ∈ e.variants, legalName v.ident = true ∧ v.ident ≠ c!"Inner" ∧ v.ident ≠ c!"Error" := by
  have ht := S.hasTy (ty := .enum e.ident e.variants e.base) ⟨_, hx, rfl⟩
  have ht' := ht
  obtain ⟨vl, hv, hp⟩ := ht
  have hn := variantLit_idents hv
  obtain ⟨k1, k2⟩ := W.placed hp (x := .enum (QIdent.simple e.ident) (baseName e.base) vl) (by simp [enumItems])
  obtain ⟨h1, h2, -, -⟩ := k2
  have hne : e.variants ≠ [] := by
    intro he
    rw [he] at hn
    exact h2 (by simpa using hn)
  obtain ⟨xs, hxs⟩ := enumOf_values S.nodup ht' h1 hne
  refine ⟨⟨xs, hxs⟩, ?_⟩
  have A := S.enumAt hx hxs
  have hvars := variantsOf_enum S.nodup ht'
  have hself : ∀ assoc x, x ∈ e.variants.map (·.ident) → tyOf P (enumCtx e.ident assoc) (.path [c!"Self", x]) = none := by
    intro assoc x hx
    rw [← hvars] at hx
    simp only [tyOf, pathTy, if_true, enumCtx]
    rw [if_pos hx]
  have hinn : c!"Inner" ∉ e.variants.map (·.ident) := by
    intro hm
    obtain ⟨s, hs, -, assoc, name, ts, r, f, h3, h4, h5, h6, -⟩ := (W.placed hp (x := enumFollow (QIdent.simple e.ident) (baseName e.base))
      (by simp [enumItems])).2
    rw [A.own_ty (k := ⟨⟨modOf e.ident, [], none⟩, none, []⟩) (.inl rfl) rfl] at hs
    cases hs
    cases h4
    rw [show selfDef P ⟨modOf e.ident, [], none⟩ (.path [QIdent.simple e.ident]) = _ from
      A.resolve (sc := ⟨modOf e.ident, [], none⟩) (.inl rfl) rfl] at h6
    simp only [sigOf, enumFollowFn, resultTy, Option.bind_eq_bind, Option.bind_eq_some_iff] at h6
    obtain ⟨_, _, r', hr, _⟩ := h6
    simp only [tyOf, Option.bind_eq_bind, Option.bind_eq_some_iff] at hr
    obtain ⟨t, ht, -⟩ := hr
    rw [show pathTy P _ _ = none from hself assoc c!"Inner" hm] at ht
    cases ht
  have herr : c!"Error" ∉ e.variants.map (·.ident) := by
    intro hm
    obtain ⟨s, hs, -, assoc, name, ts, r, f, h3, h4, h5, h6, -⟩ := (W.placed hp
      (x := enumTryFrom (QIdent.simple e.ident) (baseName e.base) vl) (by simp [enumItems])).2
    rw [A.own_ty (k := ⟨⟨modOf e.ident, [], none⟩, none, []⟩) (.inl rfl) rfl] at hs
    cases hs
    cases h4
    rw [show selfDef P ⟨modOf e.ident, [], none⟩ (.path [QIdent.simple e.ident]) = _ from
      A.resolve (sc := ⟨modOf e.ident, [], none⟩) (.inl rfl) rfl] at h6
    simp only [sigOf, enumTryFromFn, Option.bind_eq_bind, Option.bind_eq_some_iff] at h6
    obtain ⟨_, _, r', hr, _⟩ := h6
    simp only [tyOf, Option.bind_eq_bind, Option.bind_eq_some_iff] at hr
    obtain ⟨_, _, t, ht, -⟩ := hr
    rw [show pathTy P _ _ = none from hself assoc c!"Error" hm] at ht
    cases ht
  intro v hv
  have hm := List.mem_map_of_mem (f := (·.ident)) hv
  refine ⟨k1 _ ?_, fun h => hinn (h ▸ hm), fun h => herr (h ▸ hm)⟩
  simp only [Item.idents, hn]
  exact List.mem_cons_of_mem _ hm

/-- No union in a union, and something that uses the lifetime. -/
theorem Setting.union_converse (S : Setting gm E out P) (W : WellTyped P) {p : List Ident} {u : Ir.Union}
    (hx : (p, Node.union u) ∈ itemsOf out) : (∀ v ∈ u.variants, ∀ q e vs, v.ty ≠ .union q e vs) ∧
      ∃ v ∈ u.variants, (irTy v.ty).borrows = true := by
  have ht := S.hasTy (ty := .union u.ident u.enumIdent u.variants) ⟨_, hx, rfl⟩
  obtain ⟨es, us, h1, h2, hp⟩ := ht
  obtain ⟨-, -, ts, hts, hu, hb⟩ := (W.placed hp (x := .union (QIdent.simple u.ident) us) (by simp [unionItems])).2
  have : us.mapM (fun v => tyOf P (declCtx (modOf u.ident) []) v.2) = some (u.variants.map (fun v => irTy v.ty)) := by
    refine mapM_image (mapM_forall₂ h2) fun v hv w hw => ?_
    simp only [unionVariant, Option.bind_eq_bind, Option.bind_eq_some_iff, Option.pure_def, Option.some.injEq] at hw
    obtain ⟨w', hw', i, -, rfl⟩ := hw
    refine tyOf_token (k := declCtx (modOf u.ident) []) (wrap := none) S.nodup S.hygienic (.inl rfl) (by rintro _ ⟨⟩)
      (S.hasTy ((union_defined S.translates hx).2.1 v hv)) ?_ hw'
    intro q hq
    exact S.leads_to hx (by
      simp only [Gen.paths, List.mem_cons, List.mem_flatMap]
      exact .inr ⟨v, hv, hq⟩) (.inl rfl) rfl
  rw [this] at hts
  cases hts
  refine ⟨fun v hv q e vs he => hu _ (List.mem_map_of_mem hv) _ _ (by rw [he, irTy]), ?_⟩
  obtain ⟨t, ht, hb⟩ := hb
  obtain ⟨v, hv, rfl⟩ := List.mem_map.mp ht
  exact ⟨v, hv, hb⟩

end

end Butte.Rs
