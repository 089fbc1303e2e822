import Verif.Rs.TypedItems
import Verif.Rs.Enums
/-
What is emitted for an enum is well-typed.
-/
namespace Butte.Rs
open Ir (QIdent Node Ident itemsOf Translates)
open Gen (formatIdent formatIdent_eq)

section
variable {P : Program} {q : QIdent} {b : Ir.EnumBase} {vs : List Ir.EnumVariant} {xs : List (SVal (Gen.enumBaseSTy b))}
  {ret : RTy} {Γ : Types}

/-- The type. -/
abbrev enumRTy (q : QIdent) : RTy := .enum (modOf q) (QIdent.simple q)

/-- The context of the functions of an enum. -/
abbrev enumCtx (q : QIdent) (assoc : List (Str × RTy)) : TCtx := ⟨enumScope q, some (enumRTy q), assoc⟩

theorem EnumAt.own_ty (A : EnumAt P q b vs xs) {k : TCtx} (hsc : k.sc.Ok) (hm : k.sc.module = modOf q) :
    tyOf P k (.path [QIdent.simple q]) = some (enumRTy q) := by
  obtain ⟨vl, hp, -⟩ := A.lits
  have pl := A.hygienic.plain A.own
  have hne : QIdent.simple q ≠ c!"Self" := fun h => pl (by rw [h]; decide)
  rw [tyOf]
  unfold pathTy
  simp only [hne, if_false, A.resolve hsc hm, enum_item hp A.nodup]

theorem EnumAt.base_ty (A : EnumAt P q b vs xs) {k : TCtx} (hsc : k.sc.Ok) :
    tyOf P k (.path [baseName b]) = some (.prim (Gen.enumBaseSTy b)) := pathTy_prim A.hygienic hsc _

theorem EnumAt.typed (A : EnumAt P q b vs xs) {k : TCtx} (hsc : k.sc.Ok) (hm : k.sc.module = modOf q) {c : Str}
    (hc : c ∈ vs.map (·.ident)) : HasType P k ret Γ (.assoc (.path [QIdent.simple q]) c) (enumRTy q) :=
  typed_variant A.nodup A.has (A.resolve hsc hm) A.values hc

theorem EnumAt.exhaustive (A : EnumAt P q b vs xs) {sc : Scope} (hsc : sc.Ok) (hm : sc.module = modOf q)
    {vl : List (Str × Lit)} (hn : vl.map (·.1) = vs.map (·.ident)) (g : Str × Lit → Expr) :
    Exhaustive P sc (enumRTy q) ((vl.map fun v => (Pat.variant (.path [QIdent.simple q]) v.1, g v)).map (·.1)) := by
  refine .inr ⟨trivial, ?_⟩
  intro v hv
  rw [shapes, variantsOf_enum A.nodup A.has] at hv
  obtain ⟨c, hc, rfl⟩ := List.mem_map.mp hv
  refine ⟨Pat.variant (.path [QIdent.simple q]) c, ?_, by rw [A.matchPat hsc hm hc]; simp⟩
  rw [List.map_map, List.mem_map]
  rw [← hn] at hc
  obtain ⟨l, hl, rfl⟩ := List.mem_map.mp hc
  exact ⟨l, hl, rfl⟩

theorem EnumAt.patOk (A : EnumAt P q b vs xs) {sc : Scope} (hsc : sc.Ok) (hm : sc.module = modOf q)
    {vl : List (Str × Lit)} (hn : vl.map (·.1) = vs.map (·.ident)) {l : Str × Lit} (hl : l ∈ vl) :
    PatOk P sc (.variant (.path [QIdent.simple q]) l.1) (enumRTy q) := by
  refine ⟨A.resolve hsc hm, ?_⟩
  rw [variantsOf_enum A.nodup A.has, ← hn]
  exact List.mem_map_of_mem hl

/-- A function with a match over the variants. -/
theorem EnumAt.match_ok (A : EnumAt P q b vs xs) {k : TCtx} (hsc : k.sc.Ok) (hm : k.sc.module = modOf q)
    {vl : List (Str × Lit)} (hn : vl.map (·.1) = vs.map (·.ident)) {e : Expr} (he : HasType P k ret Γ e (enumRTy q))
    {g : Str × Lit → Expr} {u : RTy} (hg : ∀ l ∈ vl, HasType P k ret Γ (g l) u) :
    HasType P k ret Γ (.match e (vl.map fun v => (Pat.variant (.path [QIdent.simple q]) v.1, g v))) u := by
  refine .match he ?_ (A.exhaustive hsc hm hn g) ?_
  · intro a ha
    obtain ⟨l, hl, rfl⟩ := List.mem_map.mp ha
    exact A.patOk hsc hm hn hl
  · intro a ha
    obtain ⟨l, hl, rfl⟩ := List.mem_map.mp ha
    exact hg l hl

theorem EnumAt.lit_ty {vl : List (Str × Lit)} (hl : List.Forall₂ (LitOf (Gen.enumBaseSTy b)) vl (named vs xs)) {l : Str × Lit}
    (h : l ∈ vl) : litTy l.2 = some (.prim (Gen.enumBaseSTy b)) := by
  obtain ⟨y, -, hy⟩ := forall₂_left hl l h
  exact litTy_of hy.2.2

theorem EnumAt.ne_nil (A : EnumAt P q b vs xs) : vs ≠ [] := (enumValues_some A.values).2.2.1

theorem EnumAt.default_impl (A : EnumAt P q b vs xs) {vl : List (Str × Lit)} (hn : vl.map (·.1) = vs.map (·.ident)) :
    ItemOk P (modOf q) (enumDefault (QIdent.simple q) vl) := by
  have hsig : sigOf P (enumCtx q []) (enumDefaultFn (QIdent.simple q) vl) = some ([], enumRTy q) := by
    simp only [sigOf, enumDefaultFn, List.mapM_nil]
    rw [self_ty rfl]
    rfl
  refine trait_impl (A.own_ty (k := ⟨⟨modOf q, [], none⟩, none, []⟩) (.inl rfl) rfl) (by simp)
    (A.resolve (sc := ⟨modOf q, [], none⟩) (.inl rfl) rfl) ?_ hsig ⟨_, _, hsig, by simp [enumDefaultFn], by simp [enumDefaultFn], ?_⟩
  · simp only [traitSpec, resolve_default (sc := ⟨modOf q, [], none⟩) A.hygienic (.inl rfl)]
    rfl
  · have hne := A.ne_nil
    cases vl with
    | nil =>
      rw [List.map_nil] at hn
      exact (hne (List.map_eq_nil_iff.mp hn.symm)).elim
    | cons l vl => exact A.typed (k := enumCtx q []) (.inl rfl) rfl (by rw [← hn]; simp)

theorem EnumAt.tryFrom_impl (A : EnumAt P q b vs xs) {vl : List (Str × Lit)}
    (hl : List.Forall₂ (LitOf (Gen.enumBaseSTy b)) vl (named vs xs)) (hn : vl.map (·.1) = vs.map (·.ident))
    (herr : c!"Error" ∉ vs.map (·.ident)) : ItemOk P (modOf q) (enumTryFrom (QIdent.simple q) (baseName b) vl) := by
  have hsc : (enumCtx q [(c!"Error", .error)]).sc.Ok := .inl rfl
  have hsig : sigOf P (enumCtx q [(c!"Error", .error)]) (enumTryFromFn (QIdent.simple q) (baseName b) vl) =
      some ([.prim (Gen.enumBaseSTy b)], .result (enumRTy q) .error) := by
    have he : tyOf P (enumCtx q [(c!"Error", .error)]) (.path [c!"Self", c!"Error"]) = some .error :=
      selfInner_ty rfl (by rw [variantsOf_enum A.nodup A.has]; exact herr) rfl
    simp only [sigOf, enumTryFromFn, List.mapM_cons, List.mapM_nil, A.base_ty hsc,
      app2_ty A.hygienic hsc (self_ty (P := P) (k := enumCtx q [(c!"Error", .error)]) rfl) he]
    rfl
  refine trait_impl (A.own_ty (k := ⟨⟨modOf q, [], none⟩, none, []⟩) (.inl rfl) rfl) (by simp)
    (A.resolve (sc := ⟨modOf q, [], none⟩) (.inl rfl) rfl) ?_ hsig
    ⟨_, _, hsig, by simp [enumTryFromFn], by simp [enumTryFromFn, unbindable], ?_⟩
  · simp only [traitSpec, resolve_tryFrom (sc := ⟨modOf q, [], none⟩) A.hygienic (.inl rfl),
      A.base_ty (k := ⟨⟨modOf q, [], none⟩, none, []⟩) (.inl rfl)]
    rfl
  · refine HasType.match (t := .prim (Gen.enumBaseSTy b)) (.var rfl) ?_ (.inl (by simp)) ?_
    · intro a ha
      rcases List.mem_append.mp ha with ha | ha
      · obtain ⟨l, h, rfl⟩ := List.mem_map.mp ha
        exact ⟨EnumAt.lit_ty hl h, _, rfl⟩
      · rw [List.mem_singleton] at ha
        subst ha
        trivial
    · intro a ha
      rcases List.mem_append.mp ha with ha | ha
      · obtain ⟨l, h, rfl⟩ := List.mem_map.mp ha
        exact .ok (A.typed hsc rfl (by rw [← hn]; exact List.mem_map_of_mem h))
      · rw [List.mem_singleton] at ha
        subst ha
        exact .err (.unknownVariant (resolve_butte A.hygienic hsc _))

theorem EnumAt.implements (A : EnumAt P q b vs xs) : implementsTryFrom P (modOf q) (QIdent.simple q) (Gen.enumBaseSTy b) = true := by
  obtain ⟨vl, hp, -⟩ := A.lits
  have pl := (Plain.of_reserved (A.hygienic.plain A.own)).prim
  have h2 := resolve_tryFrom (P := P) (sc := ⟨modOf q, [], none⟩) A.hygienic (.inl rfl)
  have h3 := resolve_prim (P := P) (sc := ⟨modOf q, [], none⟩) A.hygienic (.inl rfl) (Gen.enumBaseSTy b)
  simp only [implementsTryFrom, enum_impls hp A.nodup pl ⟨_, rfl⟩, List.any_cons, h2, baseName, h3]
  simp

theorem EnumAt.follow_impl (A : EnumAt P q b vs xs) (hinn : c!"Inner" ∉ vs.map (·.ident)) :
    ItemOk P (modOf q) (enumFollow (QIdent.simple q) (baseName b)) := by
  have hsc : (enumCtx q [(c!"Inner", enumRTy q)]).sc.Ok := .inl rfl
  have hsig : sigOf P (enumCtx q [(c!"Inner", enumRTy q)]) (enumFollowFn (baseName b)) =
      some ([.bytes, .usize], .result (enumRTy q) .error) := by
    have hi : tyOf P (enumCtx q [(c!"Inner", enumRTy q)]) (.path [c!"Self", c!"Inner"]) = some (enumRTy q) :=
      selfInner_ty rfl (by rw [variantsOf_enum A.nodup A.has]; exact hinn) rfl
    simp only [sigOf, enumFollowFn, List.mapM_cons, List.mapM_nil, bytesTy_ty A.hygienic hsc, resultTy_ty A.hygienic hsc hi]
    rw [show tyOf P (enumCtx q [(c!"Inner", enumRTy q)]) (.path [c!"usize"]) = _ from usize_ty A.hygienic hsc]
    rfl
  refine trait_impl (A.own_ty (k := ⟨⟨modOf q, [], none⟩, none, []⟩) (.inl rfl) rfl) (by simp)
    (A.resolve (sc := ⟨modOf q, [], none⟩) (.inl rfl) rfl) ?_ hsig
    ⟨_, _, hsig, by simp [enumFollowFn, bytesTy], by simp [enumFollowFn, bytesTy, unbindable], ?_⟩
  · simp only [traitSpec, resolve_butte (sc := ⟨modOf q, [], none⟩) A.hygienic (.inl rfl)]
    rfl
  · refine ⟨.prim (Gen.enumBaseSTy b), .try (.fn (resolve_butte A.hygienic hsc _) (A.base_ty hsc) .read rfl
      (all2 (.var rfl) (.var rfl))) rfl, ?_⟩
    exact .tryFrom (self_ty rfl) rfl A.implements (.var rfl)

theorem EnumAt.into_impl (A : EnumAt P q b vs xs) {vl : List (Str × Lit)}
    (hl : List.Forall₂ (LitOf (Gen.enumBaseSTy b)) vl (named vs xs)) (hn : vl.map (·.1) = vs.map (·.ident)) :
    ItemOk P (modOf q) (enumInto (QIdent.simple q) (baseName b) vl) := by
  have hsc : (⟨modOf q, [], some (.prim (Gen.enumBaseSTy b))⟩ : Scope).Ok := .inl rfl
  have hsig : sigOf P ⟨⟨modOf q, [], some (.prim (Gen.enumBaseSTy b))⟩, some (.prim (Gen.enumBaseSTy b)), []⟩
      (enumIntoFn (QIdent.simple q) (baseName b) vl) = some ([enumRTy q], .prim (Gen.enumBaseSTy b)) := by
    simp only [sigOf, enumIntoFn, List.mapM_cons, List.mapM_nil,
      A.own_ty (k := ⟨⟨modOf q, [], some (.prim (Gen.enumBaseSTy b))⟩, some (.prim (Gen.enumBaseSTy b)), []⟩) hsc rfl,
      A.base_ty (k := ⟨⟨modOf q, [], some (.prim (Gen.enumBaseSTy b))⟩, some (.prim (Gen.enumBaseSTy b)), []⟩) hsc]
    rfl
  refine trait_impl (A.base_ty (k := ⟨⟨modOf q, [], none⟩, none, []⟩) (.inl rfl)) (by simp)
    (resolve_prim A.hygienic (sc := ⟨modOf q, [], none⟩) (.inl rfl) _) ?_ hsig
    ⟨_, _, hsig, by simp [enumIntoFn], by simp [enumIntoFn, unbindable], ?_⟩
  · simp only [traitSpec, resolve_from (sc := ⟨modOf q, [], none⟩) A.hygienic (.inl rfl),
      A.own_ty (k := ⟨⟨modOf q, [], none⟩, none, []⟩) (.inl rfl) rfl]
    rfl
  · exact A.match_ok hsc rfl hn (.var rfl) fun l h => .lit (EnumAt.lit_ty hl h)

theorem EnumAt.push_impl (A : EnumAt P q b vs xs) : ItemOk P (modOf q) (enumPush (QIdent.simple q) (baseName b)) := by
  have hsc : (enumCtx q [(c!"Output", enumRTy q)]).sc.Ok := .inl rfl
  have hsig : sigOf P (enumCtx q [(c!"Output", enumRTy q)]) (enumPushFn (baseName b)) =
      some ([enumRTy q, .bytes, .bytes], .unit) := by
    simp only [sigOf, enumPushFn, selfParam, List.mapM_cons, List.mapM_nil, bytesTy_ty A.hygienic hsc, unit_ty,
      selfRef_ty (P := P) (k := enumCtx q [(c!"Output", enumRTy q)]) rfl (by simp [enumScope])]
    rfl
  refine trait_impl (A.own_ty (k := ⟨⟨modOf q, [], none⟩, none, []⟩) (.inl rfl) rfl) (by simp)
    (A.resolve (sc := ⟨modOf q, [], none⟩) (.inl rfl) rfl) ?_ hsig
    ⟨_, _, hsig, by simp [enumPushFn, selfParam, bytesTy], by simp [enumPushFn, selfParam, bytesTy, unbindable], ?_⟩
  · simp only [traitSpec, resolve_butte (sc := ⟨modOf q, [], none⟩) A.hygienic (.inl rfl)]
    rfl
  · obtain ⟨vl, -, -, -, -, -, -, -, -, hfr, -⟩ := A.traits
    refine ⟨.prim (Gen.enumBaseSTy b), .runtime (d := .prim (Gen.enumBaseSTy b)) (resolve_prim A.hygienic hsc _)
      (.from (m := modOf q) (n := QIdent.simple q) (by rw [hfr]; rfl)) rfl (all1 (.deref (.var rfl))), ?_⟩
    exact ⟨⟨.unit, .fn (resolve_butte A.hygienic hsc _) (A.base_ty hsc) .emplace rfl (all2 (.var rfl) (.var rfl))⟩, .unit⟩

theorem EnumAt.name_ok (A : EnumAt P q b vs xs) {vl : List (Str × Lit)} (hn : vl.map (·.1) = vs.map (·.ident)) :
    ItemOk P (modOf q) (.fn (enumNameFn (QIdent.simple q) vl)) := by
  have hsc : (⟨modOf q, [], none⟩ : Scope).Ok := .inl rfl
  have hsig : sigOf P ⟨⟨modOf q, [], none⟩, none, []⟩ (enumNameFn (QIdent.simple q) vl) = some ([enumRTy q], .str) := by
    simp only [sigOf, enumNameFn, List.mapM_cons, List.mapM_nil, A.own_ty (k := ⟨⟨modOf q, [], none⟩, none, []⟩) hsc rfl,
      strTy_ty (k := ⟨⟨modOf q, [], none⟩, none, []⟩) A.hygienic hsc]
    rfl
  refine ⟨_, _, hsig, by simp [enumNameFn], by simp [enumNameFn, unbindable], ?_⟩
  exact A.match_ok hsc rfl hn (.var rfl) fun l _ => .lit rfl

/-- Everything that is emitted for an enum. -/
theorem EnumAt.items_ok (A : EnumAt P q b vs xs) (hinn : c!"Inner" ∉ vs.map (·.ident)) (herr : c!"Error" ∉ vs.map (·.ident))
    {dc : Ast.Comment} {items : List Item} (hi : emitEnum ⟨q, vs, b, dc⟩ = some items) {x : Item} (hx : x ∈ items) : ItemOk P (modOf q) x := by
  obtain ⟨vl, hp, hl, hn⟩ := A.lits
  obtain ⟨vl', -, hv, rfl⟩ := emitEnum_eq hi
  obtain ⟨vl'', hv', hp'⟩ := A.has
  simp only at hv
  rw [hv] at hv'
  cases hv'
  have e := enum_item hp A.nodup
  rw [enum_item hp' A.nodup] at e
  cases e
  simp only [enumItems, List.mem_cons, List.not_mem_nil, or_false] at hx
  rcases hx with rfl | rfl | rfl | rfl | rfl | rfl | rfl
  · refine ⟨by rw [A.enumOf]; rfl, ?_, ?_, ?_⟩
    · rintro rfl
      rw [List.map_nil] at hn
      exact A.ne_nil (List.map_eq_nil_iff.mp hn.symm)
    · have pl := (Plain.of_reserved (A.hygienic.plain A.own)).prim
      rw [ImplsOk, enum_impls hp A.nodup pl ⟨_, rfl⟩]
      simp [followPath]
    · rw [baseName, primOf_primName]
      exact resolve_prim A.hygienic (.inl rfl) _
  · exact A.default_impl hn
  · exact A.follow_impl hinn
  · exact A.tryFrom_impl hl hn herr
  · exact A.into_impl hl hn
  · exact A.push_impl
  · exact A.name_ok hn

end

end Butte.Rs
