import Verif.Rs.TypedEnum
/-
What is emitted for a union is well-typed.
-/
namespace Butte.Rs
open Ir (QIdent Node Ident itemsOf Translates)
open Gen (formatIdent formatIdent_eq)

section
variable {gm : Mode} {E : List Ast.Element} {out : List Node} {P : Program} {u : Ir.Union}

/-- The type. -/
abbrev unionRTy (u : Ir.Union) : RTy := .union (modOf u.ident) (QIdent.simple u.ident)

/-- Everything that is emitted for a union. -/
theorem Setting.union_items_ok (S : Setting gm E out P) {p : List Ident} (hx : (p, Node.union u) ∈ itemsOf out)
    {xs : List (SVal .u8)} (hv : Gen.enumValues .u8 (tagVariants u) = some xs)
    (hu : ∀ v ∈ u.variants, ∀ q e vs, v.ty ≠ .union q e vs) (hb : ∃ v ∈ u.variants, (irTy v.ty).borrows = true)
    {items : List Item} (hi : emitUnion u = some items) {x : Item} (hm : x ∈ items) : ItemOk P (modOf u.ident) x := by
  have ht := S.hasTy (ty := .union u.ident u.enumIdent u.variants) ⟨_, hx, rfl⟩
  obtain ⟨es, us, -, h1, h2, rfl⟩ := emitUnion_eq hi
  obtain ⟨es', us', h1', h2', hp⟩ := ht
  rw [h1] at h1'
  rw [h2] at h2'
  cases h1'
  cases h2'
  have own : (⟨modOf u.ident, .type, QIdent.simple u.ident⟩ : Gen.Item) ∈ P.names :=
    hp.mem_names ⟨.union (QIdent.simple u.ident) us, by simp [unionItems], rfl⟩
  have hpl := Plain.of_reserved (S.hygienic.plain own)
  have hres : ∀ {sc : Scope}, sc.Ok → sc.module = modOf u.ident →
      resolve P sc [QIdent.simple u.ident] = some (.item (modOf u.ident) (QIdent.simple u.ident)) := by
    intro sc hsc hm
    rw [← hm]
    exact resolve_own S.hygienic hsc (by rw [hm]; exact own)
  have hty : ∀ {k : TCtx}, k.sc.Ok → k.sc.module = modOf u.ident →
      tyOf P k (.path [QIdent.simple u.ident]) = some (unionRTy u) := by
    intro k hsc hm
    have hne : QIdent.simple u.ident ≠ c!"Self" := fun h => S.hygienic.plain own (by rw [h]; decide)
    rw [tyOf, pathTy_item (hres hsc hm) (by simpa using hne), union_item hp S.nodup]
  have hE : EnumAt P u.enumIdent .ubyte (tagVariants u) xs :=
    ⟨S.hygienic, S.nodup, hv, S.hasTy (union_defined S.translates hx).2.2⟩
  have hnames : us.map (·.1) = u.variants.map (·.ident) :=
    map_of_forall₂ (fun a b h => unionVariant_name h) (mapM_forall₂ h2)
  have htag : (u.variants.map (·.ident)).Nodup := by
    have := (enumValues_some hv).2.2.2.1
    simp only [tagVariants, List.map_cons, List.map_map, List.nodup_cons] at this
    exact this.2
  have hes : es = QIdent.relative u.enumIdent (QIdent.namespace u.ident) := by
    unfold pathTokens at h1
    split at h1
    · cases h1
    · cases h1; rfl
  have hvars : variantsOf P (unionRTy u) = u.variants.map (·.ident) := by
    simp only [variantsOf, union_item hp S.nodup, hnames]
  simp only [unionItems, List.mem_cons, List.not_mem_nil, or_false] at hm
  rcases hm with rfl | rfl
  · refine ⟨by rw [hnames]; exact htag, ?_, u.variants.map (fun v => irTy v.ty), ?_, ?_, ?_⟩
    · rw [ImplsOk, union_impls hp S.nodup hpl.prim]
      simp
    · refine mapM_image (mapM_forall₂ h2) fun v hv w hw => ?_
      simp only [unionVariant, Option.bind_eq_bind, Option.bind_eq_some_iff, Option.pure_def, Option.some.injEq] at hw
      obtain ⟨w', hw', i, -, rfl⟩ := hw
      refine tyOf_token (k := declCtx (modOf u.ident) []) (wrap := none) S.nodup S.hygienic (.inl rfl) (by rintro _ ⟨⟩)
        (S.hasTy ((union_defined S.translates hx).2.1 v hv)) ?_ hw'
      intro q hq
      exact S.leads_to hx (by
        simp only [Gen.paths, List.mem_cons, List.mem_flatMap]
        exact .inr ⟨v, hv, hq⟩) (.inl rfl) rfl
    · intro t ht m' n' he
      obtain ⟨v, hv, rfl⟩ := List.mem_map.mp ht
      have := hu v hv
      cases hvt : v.ty with
      | union q e vs => exact this q e vs hvt
      | _ => rw [hvt] at he; simp [irTy] at he
    · obtain ⟨v, hv, h⟩ := hb
      exact ⟨_, List.mem_map_of_mem hv, h⟩
  · have hd : selfDef P ⟨modOf u.ident, [], none⟩ (.path [QIdent.simple u.ident]) =
      some (.item (modOf u.ident) (QIdent.simple u.ident)) := hres (.inl rfl) rfl
    refine ⟨_, hty (k := ⟨⟨modOf u.ident, [], none⟩, none, []⟩) (.inl rfl) rfl, by simp, ?_⟩
    intro f hf
    rw [List.mem_singleton] at hf
    subst hf
    rw [hd]
    have hsc : (⟨modOf u.ident, [], some (.item (modOf u.ident) (QIdent.simple u.ident))⟩ : Scope).Ok := .inl rfl
    have hl : LeadsTo P ⟨modOf u.ident, [], some (.item (modOf u.ident) (QIdent.simple u.ident))⟩ (QIdent.namespace u.ident)
      u.enumIdent := S.leads_to hx (by simp [Gen.paths]) hsc rfl
    have hen : tyOf P ⟨⟨modOf u.ident, [], some (.item (modOf u.ident) (QIdent.simple u.ident))⟩, some (unionRTy u), []⟩
        (.path es) = some (enumRTy u.enumIdent) := by
      obtain ⟨vl, hpe, -⟩ := hE.lits
      rw [hes, tyOf, pathTy_item (k := ⟨⟨modOf u.ident, [], some (.item (modOf u.ident) (QIdent.simple u.ident))⟩,
        some (unionRTy u), []⟩) hl.1 hl.2, enum_item hpe S.nodup]
    refine ⟨[unionRTy u], enumRTy u.enumIdent, ?_, by simp [getTypeFn, selfParam], by simp [getTypeFn, selfParam, unbindable], ?_⟩
    · simp only [sigOf, getTypeFn, selfParam, List.mapM_cons, List.mapM_nil, hen]
      rw [selfRef_ty rfl (by simp)]
      rfl
    · refine HasType.match (t := unionRTy u) (.var rfl) ?_ (.inr ⟨trivial, ?_⟩) ?_
      · intro a ha
        obtain ⟨l, hl, rfl⟩ := List.mem_map.mp ha
        refine ⟨hres hsc rfl, ?_⟩
        rw [hvars, ← hnames]
        exact List.mem_map_of_mem hl
      · intro v hv
        rw [shapes, hvars] at hv
        obtain ⟨c, hc, rfl⟩ := List.mem_map.mp hv
        rw [← hnames] at hc
        refine ⟨.tuple (.path [QIdent.simple u.ident]) c, ?_, ?_⟩
        · obtain ⟨l, hl, rfl⟩ := List.mem_map.mp hc
          rw [List.map_map]
          exact List.mem_map.mpr ⟨l, hl, rfl⟩
        · simp only [matchPat]
          rw [hres hsc rfl, if_pos rfl, union_item hp S.nodup]
          simp only
          rw [if_pos hc]
          simp
      · intro a ha
        obtain ⟨l, hl', rfl⟩ := List.mem_map.mp ha
        rw [hes]
        refine typed_variant (k := ⟨⟨modOf u.ident, [], some (.item (modOf u.ident) (QIdent.simple u.ident))⟩,
          some (unionRTy u), []⟩) S.nodup hE.has hl.1 hE.values ?_
        have := List.mem_map_of_mem (f := (·.1)) hl'
        rw [hnames] at this
        obtain ⟨v, hv, e⟩ := List.mem_map.mp this
        rw [← e]
        simp only [tagVariants, List.map_cons, List.map_map, List.mem_cons, List.mem_map]
        exact .inr ⟨v, hv, rfl⟩

end

end Butte.Rs
