import Verif.Src.CheckTable
/-
The code of tables keeps the type rules: builders.
-/
namespace Butte.Src.Check
open Ir (QIdent All₂)
open Rs (Program Hygienic modOf pathTokens fwdPath wipPath Scope)

section
variable {F : File} {k : TyEnv} {m : List Str} {n : Str} {ns : Option QIdent} {fs : List Ir.Field} {args : List Field} {adds accs : List Fn}
  {consts : List ImplItem}

/-- `<'a: 'b, 'b>` -/
abbrev bldGs : List GParam := [.life c!"a" (some c!"b"), .life c!"b" none]
/-- `NBuilder<'a, 'b>` -/
abbrev bldHead (n : Str) : Ty := .path [n ++ c!"Builder"] false [.life c!"a", .life c!"b"]

/-- Parameters that leave out no lifetime, or one. -/
theorem oneElided_of {f : Fn} (h : ∀ t ∈ f.params.filterMap Param.ty?, ∀ l ∈ t.lives, l ≠ none) : OneElided f := by
  intro t ht
  rw [List.filter_eq_nil_iff.mpr]
  · simp
  · intro l hl
    simpa using h t ht l hl

theorem wrapped_lives {t : Ty} {w : Option (List Str)} {o : Bool} (h : ∀ x ∈ t.lives, x ≠ none) : ∀ x ∈ (Full.wrapped w o t).lives, x ≠ none := by
  unfold Full.wrapped
  split
  · split
    · simpa [Ty.lives, argLives] using h
    · exact h
  · exact h

/-- Types of the schema have no lifetimes but the one that is given. -/
theorem typeToken_lives {l : Str} (hl : l ≠ c!"_") : ∀ {ty : Ir.Ty} {w : Option (List Str)} {o : Bool} {t : Ty}, Full.typeToken ns ty l w o = some t → ∀ x ∈ t.lives, x ≠ none
  | .builtin b, w, o, t, h => by
    cases h
    simp [Full.word, Ty.lives, argLives]
  | .string, w, o, t, h => by
    cases h
    refine wrapped_lives ?_
    simp [Full.refLife, hl, Full.word, Ty.lives, argLives, lifeOf]
  | .array e, w, o, t, h => by
    simp only [Full.typeToken, Option.bind_eq_bind, Option.bind_eq_some_iff, Option.pure_def, Option.some.injEq] at h
    obtain ⟨c, hc, rfl⟩ := h
    refine wrapped_lives ?_
    have := typeToken_lives hl (ty := e) hc
    simp only [Ty.lives, argLives, lifeOf, hl, if_false, List.append_nil, List.mem_cons]
    rintro x (rfl | hx)
    · simp
    · exact this x hx
  | .table q, w, o, t, h => by
    simp only [Full.typeToken, Option.bind_eq_bind, Option.bind_eq_some_iff, Option.pure_def, Option.some.injEq] at h
    obtain ⟨c, hc, rfl⟩ := h
    refine wrapped_lives ?_
    simp [Full.refLife, hl, Full.bytes, Full.word, Ty.lives, argLives, lifeOf]
  | .union q _ _, w, o, t, h => by
    simp only [Full.typeToken, Option.bind_eq_bind, Option.bind_eq_some_iff, Option.pure_def, Option.some.injEq] at h
    obtain ⟨c, hc, rfl⟩ := h
    refine wrapped_lives ?_
    simp [Ty.lives, argLives, lifeOf, hl]
  | .struct q _, w, o, t, h | .enum q _ _, w, o, t, h => by
    simp only [Full.typeToken, Option.bind_eq_bind, Option.bind_eq_some_iff, Option.pure_def, Option.some.injEq] at h
    obtain ⟨c, hc, rfl⟩ := h
    simp [Ty.lives, argLives]

theorem argTy_lives {l : Str} (hl : l ≠ c!"_") {ty : Ir.Ty} {t : Ty} (h : Full.argTy ns ty l = some t) : ∀ x ∈ t.lives, x ≠ none := by
  unfold Full.argTy at h
  split at h
  · cases h
    simp [Full.wip, Ty.lives, argLives]
  · exact typeToken_lives hl h

/-- Where the functions of a builder are. -/
abbrev bldEnv (F : File) (m : List Str) (n : Str) : TyEnv :=
  bodyEnv F m bldGs [.named c!"a", .named c!"b"] [] (bldHead n) (bldTy m n (.named c!"a") (.named c!"b")) []

/-- The builder that a builder has. -/
abbrev fbbL (r s : Region) : LTy := .ref s true (.app (.butte c!"FlatBufferBuilder") [r] [])

namespace TableCk

/-- `self.fbb`, as the builder that it refers to. -/
theorem fbbPlace (T : TableCk F m n ns fs args adds accs consts) {X : Cx} {Γ : Locals} {r s : Region} (h : find Γ c!"self" = some (bldTy m n r s)) :
    Place F X Γ (.field (Full.v c!"self") c!"fbb") (fbbL r s) (· = .temp) :=
  .field (.var h) (.refl _ _) (T.builderFields r s) rfl

theorem fbbPlaceRef (T : TableCk F m n ns fs args adds accs consts) {X : Cx} {Γ : Locals} {r s l : Region} (h : find Γ c!"self" = some (.ref l true (bldTy m n r s))) :
    Place F X Γ (.field (Full.v c!"self") c!"fbb") (fbbL r s) (· = .temp) :=
  .field (.var h) (.mut (.refl _ _)) (T.builderFields r s) rfl

theorem fbbAuto {out : Region → Region → Prop} (r s : Region) : Auto out (fbbL r s) (· = .temp) (.app (.butte c!"FlatBufferBuilder") [r] []) (· = .temp) :=
  .mut (.refl _ _)

/-- `larg` of a type that is stored in place. -/
theorem larg_scalar {ty : Ir.Ty} (h : ty.isScalar = true) (r : Region) : larg ty r = lty ty r := by
  cases ty <;> first | rfl | cases h

theorem addMethod_checks (T : TableCk F m n ns fs args adds accs consts) {f : Ir.Field} (hf : f ∈ fs) {a : Fn} (h : Full.addMethod n ns f = some a) :
    FnChecks F (bldEnv F m n) bldGs [] a := by
  simp only [Full.addMethod, Option.bind_eq_bind, Option.bind_eq_some_iff, Option.pure_def, Option.some.injEq] at h
  obtain ⟨t, ht, body, hb, rfl⟩ := h
  have A := T.paths (gs := []) (.inl rfl)
  have hx : ∀ (k : TyEnv), k.sc.module = m → k.sc.generics = [] → k.lives = [(c!"a", .named c!"a"), (c!"b", .named c!"b")] →
      Means F k t (larg f.ty (.named c!"b")) := by
    intro k h1 h2 h3
    refine argTy_means (k := k) ?_ (life_means (by decide) (by decide) (by rw [h3]; rfl)) (T.okTy f hf _ (.inl h2) h1) ht
    show Paths F.prog _ _
    rw [h1, h2]
    exact A
  refine ⟨?_, [.ref (.elided 0) true (bldTy m n (.named c!"a") (.named c!"b")), larg f.ty (.named c!"b")], .unit,
    ⟨.refSelf rfl rfl (.named (hx _ rfl rfl rfl) .nil), rfl⟩, .expr (t := .unit) ?_ .unit⟩
  · refine oneElided_of ?_
    simp only [List.filterMap_cons, List.filterMap_nil, Param.ty?, List.mem_singleton]
    rintro t rfl
    exact argTy_lives (by decide) ht
  · have hid : find [(c!"self", LTy.ref (.elided 0) true (bldTy m n (.named c!"a") (.named c!"b"))), (f.ident, larg f.ty (.named c!"b"))] f.ident =
        some (larg f.ty (.named c!"b")) := by
      have := (T.notSelf f hf).symm
      simp only [find, List.find?_cons]
      rw [show ((c!"self" == f.ident) = false) from by simpa using this]
      simp
    have always : Typed F ⟨{ ((⟨Full.inlineAttr :: Full.allowAttr f.ty, false, Rs.addName f, [], [.refSelf true, .named f.ident t], none, [.expr body], none⟩ : Fn).env
          (bldEnv F m n) bldGs) with elide := fun _ => True }, Outlives (knownBounds (bldGs ++ [])), [], .unit⟩
        [(c!"self", LTy.ref (.elided 0) true (bldTy m n (.named c!"a") (.named c!"b"))), (f.ident, larg f.ty (.named c!"b"))]
        (.method (.field (Full.v c!"self") c!"fbb") c!"push_slot_always" [.ty t] [Full.slotExpr n f, Full.v f.ident]) .unit :=
      .rtMethod (l := .temp) (T.fbbPlaceRef rfl) (fbbAuto _ _) (.one (hx _ rfl rfl rfl)) (.pushSlotAlways _ _ (good_pushes (T.good f hf))) rfl
        (by simp [LTy.regions]) (.cons (T.slotTyped rfl (.inl rfl) hf) (.cons (find_var hid) .nil))
    obtain ⟨kd, hk⟩ := T.kinds f hf
    unfold Full.addBody at hb
    dsimp only at hb
    split at hb
    · rename_i hs
      cases hd : f.default with
      | none =>
        simp only [hd, Option.some.injEq] at hb
        subst hb
        exact always
      | some d =>
        simp only [hd, Option.map_eq_some_iff] at hb
        obtain ⟨e, he, rfl⟩ := hb
        refine .rtMethod (l := .temp) (T.fbbPlaceRef rfl) (fbbAuto _ _) (.one (hx _ rfl rfl rfl)) (.pushSlot _ _ (good_pushes (T.good f hf))) rfl
          (by simp [LTy.regions]) (.cons (T.slotTyped rfl (.inl rfl) hf) (.cons (find_var hid) (.cons ?_ .nil)))
        rw [larg_scalar hs]
        rw [hd] at hk
        unfold Full.argTy at ht
        rw [if_neg (by cases hty : f.ty <;> simp_all [Ir.Ty.isScalar, Ir.Ty.isUnion])] at ht
        exact default_typed (isUnion_of_scalar hs) (T.good f hf) hk ht (larg_scalar hs _ ▸ hx _ rfl rfl rfl) he
    · cases hb
      exact always

theorem newFn_sig (T : TableCk F m n ns fs args adds accs consts) {k : TyEnv} {r s : Region} (hk : k.self = some (bldTy m n r s)) (h1 : k.sc.module = m)
    (h2 : k.sc.generics = []) (ha : find k.lives c!"a" = some r) (hb : find k.lives c!"b" = some s) {el : Nat → Region → Prop} :
    Sig F k (Full.newFn n) el [fbbL r s] (bldTy m n r s) := by
  refine ⟨.named (fbb_means ?_ (life_means (by decide) (by decide) hb) (life_means (by decide) (by decide) ha)) .nil, .self hk⟩
  show Paths F.prog k.sc.module k.sc.generics
  rw [h1, h2]
  exact T.paths (.inl rfl)

theorem newFn_checks (T : TableCk F m n ns fs args adds accs consts) : FnChecks F (bldEnv F m n) bldGs [] (Full.newFn n) := by
  have A := T.paths (gs := []) (.inl rfl)
  refine ⟨?_, _, _, T.newFn_sig rfl rfl rfl rfl rfl, ?_⟩
  · simp [OneElided, Full.newFn, Param.ty?, Full.fbbTy, Ty.lives, argLives]
    decide
  · refine .let (.rtMethod (l := .temp) (.var rfl) (fbbAuto _ _) .nil (.startTable _ _) rfl ?_ .nil) (.value ?_)
    · simp [LTy.regions, tysRegions, LTy.butteOf, LTy.butte]
    · refine .structOf (rs := [_, _]) (ts := []) ?_ (T.traits.builder _ (.inl rfl) rfl) T.kindBuilder (T.builderFields _ _) (.var (find_var rfl) (.var (find_var rfl) .nil))
      exact ne_self_of rfl (T.traits.builder ⟨m, [], none⟩ (.inl rfl) rfl)

theorem finishFn_sig (T : TableCk F m n ns fs args adds accs consts) {k : TyEnv} {r s : Region} (hk : k.self = some (bldTy m n r s)) (h1 : k.sc.module = m)
    (h2 : k.sc.generics = []) (ha : find k.lives c!"a" = some r) {el : Nat → Region → Prop} :
    Sig F k (Full.finishFn n fs) el [bldTy m n r s] (.butteOf c!"WIPOffset" (tblTy m n (.ref r false .bytes))) := by
  have A : Sees F k.sc := by
    show Paths F.prog k.sc.module k.sc.generics
    rw [h1, h2]
    exact T.paths (.inl rfl)
  have hl : LifeMeans { k with elide := selfRegion (Full.finishFn n fs) [bldTy m n r s] } ((some c!"a").bind lifeOf) r :=
    life_means (by decide) (by decide) ha
  exact ⟨.self hk .nil, wip_means (k := { k with elide := selfRegion (Full.finishFn n fs) [bldTy m n r s] }) A
    (T.ofBytes (k := { k with elide := selfRegion (Full.finishFn n fs) [bldTy m n r s] }) A h1 (.inl h2) hl)⟩

theorem finishFn_checks (T : TableCk F m n ns fs args adds accs consts) : FnChecks F (bldEnv F m n) bldGs [] (Full.finishFn n fs) := by
  have A := T.paths (gs := []) (.inl rfl)
  refine ⟨by simp [OneElided, Full.finishFn, Param.ty?], _, _, T.finishFn_sig rfl rfl rfl rfl, ?_⟩
  refine .let (t := .butteOf c!"WIPOffset" (.butte c!"TableFinishedWIPOffset")) ?_ ?_
  · refine .rtMethod (l := .temp) (T.fbbPlace rfl) (fbbAuto _ _) .nil (.endTable _ _) rfl ?_ (.cons ?_ .nil)
    · simp [LTy.regions, tysRegions, LTy.butteOf, LTy.butte]
    · exact .place (.field (.var rfl) (.refl _ _) (T.builderFields _ _) rfl)
  · have key : ∀ {gs : List Ir.Field} {X : Cx} {Γ : Locals} {v : Expr} {u : LTy}, (∀ f ∈ gs, f ∈ fs) → X.env.sc.module = m → X.env.sc.Ok →
        find Γ c!"self" = some (bldTy m n (.named c!"a") (.named c!"b")) →
        find Γ c!"o" = some (.butteOf c!"WIPOffset" (.butte c!"TableFinishedWIPOffset")) → Typed F X Γ v u →
        Block F X Γ (gs.map (Full.requiredCheck n)) (some v) u := by
      intro gs
      induction gs with
      | nil => exact fun _ _ _ _ _ h => .value h
      | cons f gs ih =>
        intro X Γ v u hs h1 h2 h3 h4 h5
        refine .expr (t := .unit) ?_ (ih (fun f hf => hs f (by simp [hf])) h1 h2 h3 h4 h5)
        refine .rtMethod (l := .temp) (T.fbbPlace h3) (fbbAuto _ _) .nil (.required _ _) rfl (by simp [LTy.regions]) ?_
        exact .cons (find_var h4) (.cons (T.slotTyped h1 h2 (hs f (by simp))) (.cons (.lit rfl) .nil))
    refine key (fun f hf => (List.mem_filter.mp hf).1) rfl (.inl rfl) rfl rfl ?_
    exact .rtCall (p := wipPath) (A.butte _ _) (.offsetNew _) (.cons (.valMethod (find_var rfl) (.value _) .nil) .nil)

theorem bldMeans (T : TableCk F m n ns fs args adds accs consts) {r s : Region} {el : Region → Prop} :
    Means F (headEnv m bldGs [r, s] [] el) (bldHead n) (bldTy m n r s) :=
  T.builderMeans (k := headEnv m bldGs [r, s] [] el) rfl (.inl rfl) (life_means (by decide) (by decide) rfl) (life_means (by decide) (by decide) rfl)

theorem builderImpl_checks (T : TableCk F m n ns fs args adds accs consts) : ItemChecks F m (Full.builderImpl n adds fs) := by
  refine ⟨?_, bldTy m n (.named c!"a") (.named c!"b"), [], T.bldMeans, ?_, ?_, ?_, by simp⟩
  · simp [Ty.lives, argLives]
    decide
  · rw [implTypes_append, implTypes_fns]
    exact .nil
  · intro b x t l h
    simp at h
  · intro f hf
    simp only [List.mem_append, List.mem_map, ImplItem.fn.injEq, exists_eq_right, List.mem_cons, List.not_mem_nil, or_false] at hf
    rcases hf with hf | rfl | rfl
    · obtain ⟨x, hx, hxf⟩ := mapM_source T.addFns f hf
      exact T.addMethod_checks hx hxf
    · exact T.newFn_checks
    · exact T.finishFn_checks

end TableCk

end

end Butte.Src.Check
