import Verif.Src.TraitsItems
/-
The code of enums and unions keeps the rules for traits.
-/
namespace Butte.Src
open Ir (QIdent)
open Rs (Program Hygienic Lit)

/-! ### Enums -/

/-- What the code of an enum relies on, about traits. -/
structure EnumTraits (F : File) (m : List Str) (n : Str) : Prop where
  hygienic : Hygienic F.prog
  own : ∀ s, Rs.resolve F.prog ⟨m, [], s⟩ [n] = some (.item m n)
  item : ∃ b vs, Rs.itemOf F.prog m n = some (.enum n b vs)

section
variable {F : File} {m : List Str} {n : Str}

theorem EnumTraits.ty (T : EnumTraits F m n) (s : Option Rs.Def) (a : Option Rs.RTy) (as : List (Str × Rs.RTy)) :
    Rs.tyOf F.prog ⟨⟨m, [], s⟩, a, as⟩ (.path [n]) = some (.enum m n) := by
  obtain ⟨b, vs, hi⟩ := T.item
  have hs : n ≠ c!"Self" := by
    rintro rfl
    have := T.own none
    simp [Rs.resolve] at this
  simp [Rs.tyOf, Rs.pathTy, hs, T.own, hi]

theorem EnumTraits.tyPrim (T : EnumTraits F m n) (b : STy) (s : Option Rs.Def) (a : Option Rs.RTy) (as : List (Str × Rs.RTy)) :
    Rs.tyOf F.prog ⟨⟨m, [], s⟩, a, as⟩ (.path [Rs.primName b]) = some (.prim b) := by
  have A := Paths.of T.hygienic m (.inl rfl)
  have hs : Rs.primName b ≠ c!"Self" := by cases b <;> decide
  simp [Rs.tyOf, Rs.pathTy, hs, A.prim]

theorem tyError (h : Hygienic F.prog) (s : Option Rs.Def) (a : Option Rs.RTy) (as : List (Str × Rs.RTy)) :
    Rs.tyOf F.prog ⟨⟨m, [], s⟩, a, as⟩ (.path [c!"butte", c!"Error"]) = some .error := by
  have A := Paths.of h m (.inl rfl)
  simp [Rs.tyOf, Rs.pathTy, A.butte, Rs.butteTypes]
  rfl

theorem enumItem_traits (base : Str) (doc : Ast.Comment) (vs : List (Str × Lit × Ast.Comment)) :
    ItemTraits F m (Full.enumItem n base doc vs) := by
  have hp : (vs.map fun x => (⟨Full.comment x.2.2, x.1, .value x.2.1⟩ : Variant)).flatMap (fun v => v.payload.tys) = [] := by
    induction vs with
    | nil => rfl
    | cons v vs ih => simpa [Payload.tys] using ih
  have hd : derives ([⟨c!"repr", .list [[base]]⟩, ⟨c!"allow", .list [[c!"non_camel_case_types"]]⟩,
      Full.deriveAttr [c!"Clone", c!"Copy", c!"PartialEq", c!"Eq", c!"PartialOrd", c!"Ord", c!"Hash", c!"Debug"]] ++
        Full.comment doc) = [[c!"Clone"], [c!"Copy"], [c!"PartialEq"], [c!"Eq"], [c!"PartialOrd"], [c!"Ord"], [c!"Hash"], [c!"Debug"]] := by
    rw [derives_append, derives_comment]
    rfl
  simp only [Full.enumItem, ItemTraits, DerivesOk, hp, hd]
  refine ⟨by decide, ?_⟩
  intro p hp
  simp only [List.mem_cons, List.not_mem_nil, or_false] at hp
  rcases hp with rfl | rfl | rfl | rfl | rfl | rfl | rfl | rfl <;> exact ⟨_, by decide, rfl, by decide, by simp⟩

theorem enumDefault_traits (T : EnumTraits F m n) (vs : List (Str × Lit × Ast.Comment)) : ItemTraits F m (Full.enumDefault n vs) := by
  have A := Paths.of T.hygienic m (.inl rfl)
  have hm : ∀ e ∈ (Full.enumDefaultValue n vs).toList, e.methods = [] := by
    cases vs <;> simp [Full.enumDefaultValue, Expr.methods]
  refine ⟨⟨by simp, by simp [typeParams]⟩, ?_, ?_⟩
  · intro f hf e he x hx
    simp only [implFns, List.mem_singleton] at hf
    subst hf
    simp only [Fn.exprs, List.flatMap_nil, List.nil_append] at he
    rw [hm e he] at hx
    cases hx
  · traits A [T.own, T.ty]

theorem enumFollow_traits (T : EnumTraits F m n) (b : STy) : ItemTraits F m (Full.enumFollow n (Rs.primName b)) := by
  have A := Paths.of T.hygienic m (.inl rfl)
  traits A [Full.enumFollow, T.own, T.ty, T.tyPrim, ty_self]

theorem enumTryFrom_traits (T : EnumTraits F m n) (b : STy) (vs : List (Str × Lit × Ast.Comment)) :
    ItemTraits F m (Full.enumTryFrom n (Rs.primName b) vs) := by
  have A := Paths.of T.hygienic m (.inl rfl)
  have hv : armsMethods (vs.map fun x => (Pat.lit x.2.1, Full.ok (.qpath (Full.word n) none x.1))) = [] := by
    induction vs with
    | nil => rfl
    | cons v vs ih => simpa [armsMethods, Full.ok, Full.v, Expr.methods, exprsMethods] using ih
  have hm : (Expr.match (Full.v c!"value") (vs.map (fun x => (Pat.lit x.2.1, Full.ok (.qpath (Full.word n) none x.1))) ++
          [(.wild, .call (Full.v c!"Err") [.path [c!"butte", c!"Error", c!"UnknownEnumVariant"] []])])).methods = [] := by
    rw [Expr.methods, armsMethods_append, hv]
    simp [Full.v, armsMethods, Expr.methods, exprsMethods]
  refine ⟨⟨by simp, by simp [typeParams]⟩, ?_, ?_⟩
  · intro f hf e he x hx
    simp only [implFns, List.mem_singleton] at hf
    subst hf
    simp only [Fn.exprs, List.flatMap_nil, List.nil_append, Option.toList_some, List.mem_singleton] at he
    rw [he, hm] at hx
    cases hx
  · traits A [T.own, T.ty, T.tyPrim, A.prim, tyError T.hygienic]

theorem enumInto_traits (T : EnumTraits F m n) (b : STy) (vs : List (Str × Lit × Ast.Comment)) :
    ItemTraits F m (Full.enumInto n (Rs.primName b) vs) := by
  have A := Paths.of T.hygienic m (.inl rfl)
  have hv : armsMethods (vs.map fun x => (Pat.qpath (Full.word n) x.1, .lit x.2.1)) = [] := by
    induction vs with
    | nil => rfl
    | cons v vs ih => simpa [armsMethods, Expr.methods] using ih
  refine ⟨⟨by simp, by simp [typeParams]⟩, ?_, ?_⟩
  · intro f hf e he x hx
    simp only [implFns, List.mem_singleton] at hf
    subst hf
    simp only [Fn.exprs, List.flatMap_nil, List.nil_append, Option.toList_some, List.mem_singleton] at he
    rw [he, Expr.methods, hv] at hx
    cases hx
  · traits A [T.own, T.ty, T.tyPrim, A.prim]

theorem enumPush_traits (T : EnumTraits F m n) (b : STy) : ItemTraits F m (Full.enumPush n (Rs.primName b)) := by
  have A := Paths.of T.hygienic m (.inl rfl)
  traits A [Full.enumPush, T.own, T.ty, T.tyPrim, ty_self]

theorem enumName_traits (vs : List (Str × Lit × Ast.Comment)) : ItemTraits F m (Full.enumName n vs) := by
  have hv : armsMethods (vs.map fun x => (Pat.path [n, x.1], .lit (.str x.1))) = [] := by
    induction vs with
    | nil => rfl
    | cons v vs ih => simpa [armsMethods, Expr.methods] using ih
  intro e he x hx
  simp only [Fn.exprs, List.flatMap_nil, List.nil_append, Option.toList_some, List.mem_singleton] at he
  rw [he, Expr.methods, hv] at hx
  cases hx

theorem enum_traits {e : Ir.Enum} {ys : List Item} (T : EnumTraits F m (QIdent.simple e.ident)) (h : Full.enum e = some ys) :
    ∀ y ∈ ys, ItemTraits F m y := by
  simp only [Full.enum, Option.bind_eq_bind, Option.bind_eq_some_iff, Option.pure_def, Option.some.injEq] at h
  obtain ⟨n, hn, vs, -, rfl⟩ := h
  obtain rfl := Gen.formatIdent_eq hn
  intro y hy
  simp only [List.mem_cons, List.not_mem_nil, or_false] at hy
  rcases hy with rfl | rfl | rfl | rfl | rfl | rfl | rfl
  · exact enumItem_traits _ _ _
  · exact enumDefault_traits T _
  · exact enumFollow_traits T _
  · exact enumTryFrom_traits T _ _
  · exact enumInto_traits T _ _
  · exact enumPush_traits T _
  · exact enumName_traits _

/-! ### Unions -/

theorem unionItem_traits {ns : Option QIdent} (hh : Hygienic F.prog) {us : List Ir.UnionVariant} {vs : List Variant}
    (h : us.mapM (Full.unionVariant ns) = some vs)
    (hk : ∀ u ∈ us, KnownTy F ⟨m, [], none⟩ ns u.ty ∧ u.ty ≠ .string ∧ (∀ t, u.ty ≠ .array t) ∧ ∀ b, u.ty ≠ .builtin b)
    (doc : Ast.Comment) : ItemTraits F m (Full.unionItem n doc vs) := by
  have A := Paths.of hh m (.inl rfl)
  simp only [Full.unionItem, ItemTraits, DerivesOk]
  rw [derives_cons, derives_derive, derives_comment, List.append_nil]
  refine ⟨by decide, ?_⟩
  intro p hp
  obtain ⟨d, hd, rfl⟩ := List.mem_map.mp hp
  refine ⟨d, ?_, rfl, ?_, ?_⟩
  · simp only [List.mem_cons, List.not_mem_nil, or_false] at hd
    rcases hd with rfl | rfl | rfl | rfl <;> decide
  · simp only [List.mem_cons, List.not_mem_nil, or_false] at hd
    rcases hd with rfl | rfl | rfl | rfl <;> decide
  · intro t ht
    obtain ⟨v, hv, ht⟩ := List.mem_flatMap.mp ht
    obtain ⟨u, hu, huv⟩ := mapM_source h v hv
    simp only [Full.unionVariant, Option.bind_eq_bind, Option.bind_eq_some_iff, Option.pure_def, Option.some.injEq] at huv
    obtain ⟨i, -, t', ht', rfl⟩ := huv
    simp only [Payload.tys, List.mem_singleton] at ht
    subst ht
    obtain ⟨h1, h2, h3, h4⟩ := hk u hu
    exact member_has (A.u8 _) ht' h1 ⟨h2, h3⟩ h4 hd

theorem unionImpl_traits (own : ∀ s, Rs.resolve F.prog ⟨m, [], s⟩ [n] = some (.item m n)) (e : List Str) (vs : List Ir.UnionVariant) :
    ItemTraits F m (Full.unionImpl n e vs) := by
  have hv : armsMethods (vs.map fun x => (Pat.rest [n, x.ident], .path (e ++ [x.ident]) [])) = [] := by
    induction vs with
    | nil => rfl
    | cons v vs ih => simpa [armsMethods, Expr.methods] using ih
  refine ⟨⟨by simp, by simp [typeParams]⟩, ?_, rfl, m, n, own _⟩
  intro f hf e he x hx
  simp only [implFns, List.mem_singleton] at hf
  subst hf
  simp only [Fn.exprs, List.flatMap_nil, List.nil_append, Option.toList_some, List.mem_singleton] at he
  rw [he, Expr.methods, hv] at hx
  cases hx

theorem union_traits {u : Ir.Union} {ys : List Item} (hh : Hygienic F.prog)
    (own : ∀ s, Rs.resolve F.prog ⟨m, [], s⟩ [QIdent.simple u.ident] = some (.item m (QIdent.simple u.ident)))
    (hk : ∀ v ∈ u.variants, KnownTy F ⟨m, [], none⟩ (QIdent.namespace u.ident) v.ty ∧ v.ty ≠ .string ∧ (∀ t, v.ty ≠ .array t) ∧
      ∀ b, v.ty ≠ .builtin b) (h : Full.union u = some ys) : ∀ y ∈ ys, ItemTraits F m y := by
  simp only [Full.union, Option.bind_eq_bind, Option.bind_eq_some_iff, Option.pure_def, Option.some.injEq] at h
  obtain ⟨n, hn, e, -, vs, hvs, rfl⟩ := h
  obtain rfl := Gen.formatIdent_eq hn
  intro y hy
  simp only [List.mem_cons, List.not_mem_nil, or_false] at hy
  rcases hy with rfl | rfl
  · exact unionItem_traits hh hvs hk _
  · exact unionImpl_traits own _ _

end

end Butte.Src
