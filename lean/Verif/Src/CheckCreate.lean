import Verif.Src.CheckBuilder
/-
The code of tables keeps the type rules: `create` and the defaults of arguments.
-/
namespace Butte.Src.Check
open Ir (QIdent All₂)
open Rs (Program Hygienic modOf pathTokens fwdPath wipPath Scope)

section
variable {F : File} {k : TyEnv} {m : List Str} {n : Str} {ns : Option QIdent} {fs : List Ir.Field} {args : List Field} {adds accs : List Fn}
  {consts : List ImplItem}

/-- The lifetimes of a builder are as they should be. -/
theorem bldBounds {out : Region → Region → Prop} {r s : Region} (h : out r s) : BoundsHold out (declEnv m bldGs [r, s] []) bldGs := by
  intro x hx
  simp only [lifeBoundPairs, List.mem_singleton] at hx
  subst hx
  exact ⟨r, s, rfl, rfl, h⟩

theorem noBounds {out : Region → Region → Prop} {gs : List GParam} (h : lifeBoundPairs gs = []) : BoundsHold out k gs := by
  intro x hx
  rw [h] at hx
  cases hx

namespace TableCk

theorem newInherent (T : TableCk F m n ns fs args adds accs consts) {out : Region → Region → Prop} {ps : List Str} {r s : Region} (h : out r s) :
    InherentFn F out ps (bldTy m n r s) (Full.newFn n) [fbbL r s] (bldTy m n r s) :=
  .mk (rs := [r, s]) (ts := []) (fr := []) T.builderAt (by simp) T.bldMeans (bldBounds h) (by simp [WhereHolds]) (noBounds rfl)
    (T.newFn_sig rfl rfl rfl rfl rfl)

theorem finishInherent (T : TableCk F m n ns fs args adds accs consts) {out : Region → Region → Prop} {ps : List Str} {r s : Region} (h : out r s) :
    InherentFn F out ps (bldTy m n r s) (Full.finishFn n fs) [bldTy m n r s] (.butteOf c!"WIPOffset" (tblTy m n (.ref r false .bytes))) :=
  .mk (rs := [r, s]) (ts := []) (fr := []) T.builderAt (by simp) T.bldMeans (bldBounds h) (by simp [WhereHolds]) (noBounds rfl)
    (T.finishFn_sig rfl rfl rfl rfl)

theorem addInherent (T : TableCk F m n ns fs args adds accs consts) {out : Region → Region → Prop} {ps : List Str} {r s l : Region} (h : out r s)
    {f : Ir.Field} (hf : f ∈ fs) : ∃ a : Fn, a.name = Rs.addName f ∧ (∃ qs, a.params = .refSelf true :: qs) ∧
      InherentFn F out ps (bldTy m n r s) a [.ref l true (bldTy m n r s), larg f.ty s] .unit := by
  obtain ⟨a, ha, haf⟩ := mapM_image T.addFns f hf
  simp only [Full.addMethod, Option.bind_eq_bind, Option.bind_eq_some_iff, Option.pure_def, Option.some.injEq] at haf
  obtain ⟨t, ht, body, hb, rfl⟩ := haf
  refine ⟨⟨Full.inlineAttr :: Full.allowAttr f.ty, false, Rs.addName f, [], [.refSelf true, .named f.ident t], none, [.expr body], none⟩, rfl, ⟨_, rfl⟩, .mk (rs := [r, s]) (ts := []) (fr := []) T.builderAt ?_ T.bldMeans (bldBounds h) (by simp [WhereHolds]) (noBounds rfl)
    ⟨.refSelf rfl trivial (.named ?_ .nil), rfl⟩⟩
  · exact List.mem_append_left _ (List.mem_map_of_mem ha)
  · exact argTy_means (k := { ({ bodyEnv F m bldGs [r, s] [] (bldHead n) (bldTy m n r s) [] with lives := _ } : TyEnv) with elide := _ }) (T.paths (gs := []) (.inl rfl))
      (life_means (by decide) (by decide) rfl) (T.okTy f hf _ (.inl rfl) rfl) ht

/-- Where `create` is. -/
abbrev createEnv (F : File) (m : List Str) (n : Str) : TyEnv :=
  bodyEnv F m [.life c!"a" none] [.named c!"a"] [] (Full.ofBytes n (some c!"a")) (tblTy m n (.ref (.named c!"a") false .bytes)) []

theorem addCall_block (T : TableCk F m n ns fs args adds accs consts) {X : Cx} {v : Expr} {u : LTy} {r s q : Region} (hr : X.out r q) (hs : X.out s q)
    {Γ : Locals} (hb : find Γ c!"builder" = some (bldTy m n r q))
    (ha : find Γ c!"args" = some (.ref s false (argsTy m n fs s))) (hv : Typed F X Γ v u) : ∀ {gs : List Ir.Field}, (∀ f ∈ gs, f ∈ fs) →
      Block F X Γ (gs.map Full.addCall) (some v) u
  | [], _ => .value hv
  | f :: gs, h => by
    have hf := h f (by simp)
    have ih := T.addCall_block hr hs hb ha hv (gs := gs) fun f hf => h f (by simp [hf])
    obtain ⟨kd, hk⟩ := T.kinds f hf
    obtain ⟨a, ha1, ⟨qs, ha2⟩, ha3⟩ := T.addInherent (out := X.out) (ps := X.asBytes) (l := .temp) hr hf
    have harg : Typed F X Γ (.field (Full.v c!"args") f.ident) (largF f s) :=
      .place (.field (.var ha) (.shared (.refl _ _)) (T.argsFieldsOf s) (find_fields T.ids f hf))
    have hsub := arg_sub hs (T.good f hf) hk
    rw [List.map_cons]
    unfold Full.addCall
    dsimp only
    by_cases hc : (f.required || f.ty.isScalar) = true
    · rw [if_pos hc]
      rw [largF, if_pos hc] at harg
      refine .expr (t := .unit) ?_ ih
      rw [← ha1]
      exact .methodRef (.var hb) (.refl _ _) ha2 ha3 rfl (by simp [LTy.regions]) (.cons (.sub harg hsub) .nil)
    · rw [if_neg hc]
      rw [largF, if_neg hc] at harg
      refine .ifLet harg (.some (.bind (by decide))) ?_ ih
      rw [← ha1]
      exact .methodRef (.var (x := c!"builder") hb) (.refl _ _) ha2 ha3 rfl (by simp [LTy.regions]) (.cons (.sub (find_var rfl) hsub) .nil)

theorem createFn_checks (T : TableCk F m n ns fs args adds accs consts) : FnChecks F (createEnv F m n) [.life c!"a" none] [] (Full.createFn n fs) := by
  have A := T.paths (gs := []) (.inl rfl)
  have o1 : Outlives (knownBounds ([.life c!"a" none] ++ (Full.createFn n fs).generics)) (.named c!"bldr") (.named c!"args") :=
    .bound (by simp [knownBounds, Full.createFn, lifeBoundPairs])
  have o2 : Outlives (knownBounds ([.life c!"a" none] ++ (Full.createFn n fs).generics)) (.named c!"args") (.named c!"mut_bldr") :=
    .bound (by simp [knownBounds, Full.createFn, lifeBoundPairs])
  have o3 := Outlives.trans o1 o2
  refine ⟨?_, [fbbL (.named c!"bldr") (.named c!"mut_bldr"), .ref (.named c!"args") false (argsTy m n fs (.named c!"args"))],
    .butteOf c!"WIPOffset" (tblTy m n (.ref (.named c!"bldr") false .bytes)), ⟨.named ?_ (.named (.ref ?_ ?_) .nil), ?_⟩, ?_⟩
  · refine oneElided_of ?_
    simp only [Full.createFn, List.filterMap_cons, List.filterMap_nil, Param.ty?, List.mem_cons, List.not_mem_nil, or_false]
    rintro t (rfl | rfl)
    · simp [Full.fbbTy, Ty.lives, argLives]
      decide
    · simp only [Full.argsTy]
      split <;> simp [Ty.lives, argLives] <;> decide
  · exact fbb_means A (life_means (by decide) (by decide) rfl) (life_means (by decide) (by decide) rfl)
  · exact life_means (by decide) (by decide) rfl
  · exact T.argsMeans rfl (.inl rfl) fun _ => life_means (by decide) (by decide) rfl
  · exact wip_means A (T.ofBytes (l := some c!"bldr") A rfl (.inl rfl) (life_means (by decide) (by decide) rfl))
  · refine .let (.call (p := [n ++ c!"Builder"]) (f := Full.newFn n) (by simp) (T.traits.builder _ (.inl rfl) rfl) ?_
      (T.newInherent (r := .named c!"bldr") (s := .named c!"mut_bldr") o3) (.cons (find_var rfl) .nil)) ?_
    · simp [variantNames, T.builder, Full.builderStruct]
    · refine T.addCall_block o3 o2 rfl rfl ?_ fun f hf => hf
      exact .method (f := Full.finishFn n fs) (find_var rfl) rfl (T.finishInherent o3) .nil

theorem tableCreate_checks (T : TableCk F m n ns fs args adds accs consts) : ItemChecks F m (Full.tableCreate n consts fs) := by
  have A := T.paths (gs := []) (.inl rfl)
  refine ⟨?_, tblTy m n (.ref (.named c!"a") false .bytes), [], ?_, ?_, ?_, ?_, by simp⟩
  · simp [Full.ofBytes, Full.bytes, Full.word, Ty.lives, argLives]
    decide
  · exact T.ofBytes (l := some c!"a") A rfl (.inl rfl) (life_means (by decide) (by decide) rfl)
  · have : implTypes (consts ++ [.fn (Full.createFn n fs)]) = [] := by
      rw [implTypes_append]
      have : ∀ {cs : List ImplItem}, (∀ c ∈ cs, ∃ x, ∃ v : Fin 65536, c = .const true x (.path [c!"butte", c!"VOffsetT"] false []) (.int v.val c!"u16")) →
          implTypes cs = [] := by
        intro cs h
        induction cs with
        | nil => rfl
        | cons c cs ih =>
          obtain ⟨x, v, rfl⟩ := h c (by simp)
          exact ih fun c hc => h c (by simp [hc])
      rw [this T.constOut]
      rfl
    rw [this]
    exact .nil
  · intro b x t l h
    simp only [List.mem_append, List.mem_singleton, reduceCtorEq, or_false] at h
    obtain ⟨y, v, hv⟩ := T.constOut _ h
    cases hv
    refine ⟨.prim .u16, slot_means A, ?_⟩
    have hv : Gen.literal .u16 (.integer v.val) = some v := by
      have := v.isLt
      simp only [Gen.literal, Gen.intLit, Bool.false_eq_true, if_false]
      rw [if_pos (by constructor <;> omega)]
      refine congrArg some (Fin.ext ?_)
      exact Nat.mod_eq_of_lt v.isLt
    exact lit_typed (s := .integer v.val) (t := .u16) (l := .int v.val c!"u16") rfl hv
  · intro f hf
    simp only [List.mem_append, List.mem_singleton, ImplItem.fn.injEq] at hf
    rcases hf with hf | rfl
    · obtain ⟨y, v, hv⟩ := T.constOut _ hf
      cases hv
    · exact T.createFn_checks

/-! ### Defaults of arguments -/

theorem argDefault_typed (T : TableCk F m n ns fs args adds accs consts) {X : Cx} (hm : X.env.sc.module = m) (hg : X.env.sc.generics = []) (he : ∀ r, X.env.elide r)
    {f : Ir.Field} (hf : f ∈ fs) (hd : ∀ q vs b, f.ty = .enum q vs b → f.default = none → c!"default" ∉ vs.map (·.ident))
    (hc : (!f.required || f.ty.isScalar) = true) {r : Region}
    {x : Str × Option Expr} (hx : Full.argDefault ns f = some x) : x.1 = f.ident ∧ ∃ e, x.2 = some e ∧ Typed F X [] e (largF f r) := by
  simp only [Full.argDefault, Option.bind_eq_bind, Option.bind_eq_some_iff, Option.pure_def, Option.some.injEq] at hx
  obtain ⟨t, ht, e, hex, rfl⟩ := hx
  refine ⟨rfl, e, rfl, ?_⟩
  have A : Sees F X.env.sc := by
    show Paths F.prog _ _
    rw [hm, hg]
    exact T.paths (.inl rfl)
  unfold Full.argDefaultExpr at hex
  by_cases hs : f.ty.isScalar = true
  · rw [largF, if_pos (by simp [hs]), larg_scalar hs]
    have ht' : Means F X.env t (lty f.ty r) := typeToken_means A (l := c!"_") (he r) (T.okTy f hf _ (.inl hg) hm) (.inl rfl) ht
    obtain ⟨kd, hk⟩ := T.kinds f hf
    simp only [hs, Bool.not_true, Bool.false_eq_true, if_false] at hex
    cases hdf : f.default with
    | none =>
      simp only [hdf, Option.some.injEq] at hex
      subst hex
      have G := T.good f hf
      cases hty : f.ty with
      | builtin b =>
        rw [hty] at ht'
        exact .defaultPrim ht'
      | enum q vs b =>
        rw [hty] at ht' G
        obtain ⟨ls, E, hls⟩ := G
        refine .default ht' ?_ (E.hasDefault _)
        show _ ∉ variantNames F (enmTy _ _)
        rw [E.names, hls]
        exact hd q vs b hty hdf
      | struct q fs => rw [hty] at G; exact G.elim
      | string | array t | table q | union q e vs => rw [hty] at hs; cases hs
    | some d =>
      rw [hdf] at hk
      have : Full.defaultValue t d = some e := by
        cases d with
        | ident i =>
          simp only [hdf] at hex
          split at hex
          · simp only [Option.map_eq_some_iff] at hex
            obtain ⟨i', hi, rfl⟩ := hex
            simp [Full.defaultValue, hi]
          · cases hex
        | scalar s =>
          simp only [hdf] at hex
          split at hex
          · cases hex
          · simp only [Option.map_eq_some_iff] at hex
            obtain ⟨i', hi, rfl⟩ := hex
            simp [Full.defaultValue, hi]
      exact default_typed (isUnion_of_scalar hs) (T.good f hf) hk ht ht' this
  · simp only [hs, Bool.not_false, if_true, Option.some.injEq] at hex
    subst hex
    have : f.required = false := by simpa [hs] using hc
    rw [largF, if_neg (by simp [this, hs])]
    exact .none rfl

theorem argsDefault_checks (T : TableCk F m n ns fs args adds accs consts)
    (hd : ∀ f ∈ fs, ∀ q vs b, f.ty = .enum q vs b → f.default = none → c!"default" ∉ vs.map (·.ident)) (hc : Rs.canDefault fs = true)
    {ds : List (Str × Option Expr)} (hds : fs.mapM (Full.argDefault ns) = some ds) : ItemChecks F m (Full.argsDefault n fs ds) := by
  have ht : typeParams (Full.argsGenerics fs) = [] := typeParams_args
  have hmeans : ∀ (k : TyEnv), k.sc.module = m → k.sc.generics = [] → k.lives = (lifeNames (Full.argsGenerics fs)).zip (ownRegions (Full.argsGenerics fs)) →
      Means F k (Full.argsTy n fs c!"a") (argsTy m n fs (.named c!"a")) := by
    intro k h1 h2 h3
    refine T.argsMeans h1 (.inl h2) fun h => life_means (by decide) (by decide) ?_
    rw [h3]
    simp only [Full.argsGenerics, h, if_true]
    rfl
  have hs : Sig F ((⟨[], false, c!"default", [], [], some Full.selfTy, [], some (.struct [c!"Self"] ds)⟩ : Fn).env
      (bodyEnv F m (Full.argsGenerics fs) (ownRegions (Full.argsGenerics fs)) (ownParams (Full.argsGenerics fs)) (Full.argsTy n fs c!"a") (argsTy m n fs (.named c!"a")) [])
        (Full.argsGenerics fs))
      ⟨[], false, c!"default", [], [], some Full.selfTy, [], some (.struct [c!"Self"] ds)⟩ bodyElide [] (argsTy m n fs (.named c!"a")) :=
    ⟨.nil, .self rfl⟩
  refine impl_one (self := argsTy m n fs (.named c!"a")) (assoc := []) ?_ ?_ rfl (hmeans _ rfl ht rfl) .nil ⟨?_, _, _, hs, ?_⟩
    (trait_one (d := .std c!"Default") ?_ .nil (.default _) hs)
  · simp only [Full.argsTy, Full.word]
    split
    · simp [Ty.lives, argLives]
      decide
    · simp [Ty.lives, argLives]
  · simp
  · simp [OneElided]
  · refine .value (.struct (.self rfl) (T.argsFieldsOf (.named c!"a")) ?_)
    have key : ∀ {gs : List Ir.Field} {xs : List (Str × Option Expr)} {X : Cx}, X.env.sc.module = m → X.env.sc.generics = [] → (∀ r, X.env.elide r) →
        (∀ f ∈ gs, f ∈ fs) → gs.mapM (Full.argDefault ns) = some xs →
        Inits F X [] xs (gs.map fun f => (f.ident, largF f (.named c!"a"))) := by
      intro gs
      induction gs with
      | nil =>
        intro xs X h1 h2 h3 h4 h
        cases h
        exact .nil
      | cons f gs ih =>
        intro xs X h1 h2 h3 h4 h
        simp only [List.mapM_cons, Option.bind_eq_bind, Option.bind_eq_some_iff, Option.pure_def, Option.some.injEq] at h
        obtain ⟨⟨x1, x2⟩, hx, xs', hxs, rfl⟩ := h
        have hf := h4 f (by simp)
        obtain ⟨rfl, e, rfl, he⟩ := T.argDefault_typed h1 h2 h3 hf (hd f hf) (by have := List.all_eq_true.mp hc f hf; simpa using this) (r := .named c!"a") hx
        exact .cons he (ih h1 h2 h3 (fun f hf => h4 f (by simp [hf])) hxs)
    exact key rfl ht (fun _ => trivial) (fun f hf => hf) hds
  · rw [ht]
    exact (T.paths (gs := []) (.inl rfl)).default _

end TableCk

end

end Butte.Src.Check
