import Verif.Rs.TypedAccess
/-
The builder of a table, its arguments, and `create` are well-typed.
-/
namespace Butte.Rs
open Ir (QIdent Node Ident itemsOf Translates)
open Gen (formatIdent formatIdent_eq GField Kind kindOf)

section
variable {gm md : Mode} {P : Program} {t : Ir.Table} {gs : List GField} {ret : RTy} {Γ : Types}

/-- The type of the builder. -/
abbrev builderRTy (t : Ir.Table) : RTy := .struct (tMod t) (tName t ++ c!"Builder")
/-- The type of the arguments. -/
abbrev argsRTy (t : Ir.Table) : RTy := .struct (tMod t) (tName t ++ c!"Args")
/-- What `create` returns. -/
abbrev finishedRTy (t : Ir.Table) : RTy := .butteApp c!"WIPOffset" (.structApp (tMod t) (tName t) .bytes)

theorem builder_ok (t : Ir.Table) : (builderCtx t).sc.Ok := .inl rfl

theorem unit_ty {k : TCtx} : tyOf P k (.path []) = some .unit := rfl

/-! ### Blocks -/

theorem block_exprs {k : TCtx} {α : Type} {l : List α} {g : α → Stmt} {last : Expr} {u : RTy}
    (hg : ∀ a ∈ l, (∃ e v, g a = .expr e ∧ HasType P k ret Γ e v) ∨ ∃ x e body w v, g a = .ifSome x e body ∧
      HasType P k ret Γ e (.option w) ∧ HasType P k ret ((x, w) :: Γ) body v)
    (hl : HasType P k ret Γ last u) : BlockOk P k ret Γ (l.map g) last u := by
  induction l with
  | nil => exact hl
  | cons a l ih =>
    have hrest := ih fun b hb => hg b (by simp [hb])
    rw [List.map_cons]
    rcases hg a (by simp) with ⟨e, v, he, ht⟩ | ⟨x, e, body, w, v, he, h1, h2⟩
    · rw [he]
      exact ⟨⟨v, ht⟩, hrest⟩
    · rw [he]
      exact ⟨⟨w, h1, v, h2⟩, hrest⟩

/-! ### The builder -/

theorem TableAt.self_builder (A : TableAt gm P t gs) : selfOf P (tMod t) (tName t ++ c!"Builder") [] = some (builderRTy t) := by
  simp [selfOf, A.builderItem, builderStruct]

theorem TableAt.fbb (A : TableAt gm P t gs) {k : TCtx} {e : Expr} (he : HasType P k ret Γ e (builderRTy t)) :
    HasType P k ret Γ (.field e c!"fbb") (.butte c!"FlatBufferBuilder") :=
  .field he (by simp only [fieldTy, A.fields_builder]; rfl)

theorem TableAt.start (A : TableAt gm P t gs) {k : TCtx} {e : Expr} (he : HasType P k ret Γ e (builderRTy t)) :
    HasType P k ret Γ (.field e c!"start") (.butteApp c!"WIPOffset" (.butte c!"TableUnfinishedWIPOffset")) :=
  .field he (by simp only [fieldTy, A.fields_builder]; rfl)

theorem TableAt.new_sig (A : TableAt gm P t gs) :
    sigOf P (builderCtx t) (newFn (tName t)) = some ([.butte c!"FlatBufferBuilder"], builderRTy t) := by
  simp only [sigOf, newFn, List.mapM_cons, List.mapM_nil, fbb_ty A.hygienic (builder_ok t), self_ty (P := P) (k := builderCtx t) rfl]
  rfl

theorem TableAt.new_ok (A : TableAt gm P t gs) : FnOk P (builderCtx t) (newFn (tName t)) := by
  refine ⟨_, _, A.new_sig, by simp [newFn], by simp [newFn, unbindable], ?_⟩
  have hfbb : ∀ {Γ : Types}, (Γ.find? fun y => y.1 == c!"fbb").map (·.2) = some (.butte c!"FlatBufferBuilder") →
      HasType P (builderCtx t) (builderRTy t) Γ (.var c!"fbb") (.butte c!"FlatBufferBuilder") := fun h => .var h
  refine ⟨_, .runtimeMethod (hfbb rfl) .startTable rfl all0, ?_⟩
  refine .struct (A.builder_ty (builder_ok t) rfl) A.fields_builder rfl ?_
  intro p hp
  simp only [List.zip_cons_cons, List.zip_nil_left, List.mem_cons, List.not_mem_nil, or_false] at hp
  rcases hp with rfl | rfl
  · exact hfbb rfl
  · exact .var rfl

theorem TableAt.finish_sig (A : TableAt gm P t gs) :
    sigOf P (builderCtx t) (finishFn (tName t) t.fields) = some ([builderRTy t], finishedRTy t) := by
  simp only [sigOf, finishFn, List.mapM_cons, List.mapM_nil, self_ty (P := P) (k := builderCtx t) rfl,
    A.finished_ty (builder_ok t) rfl]
  rfl

theorem TableAt.finish_ok (A : TableAt gm P t gs) : FnOk P (builderCtx t) (finishFn (tName t) t.fields) := by
  refine ⟨_, _, A.finish_sig, by simp [finishFn], by simp [finishFn, unbindable], ?_⟩
  have hself : ∀ {Γ : Types}, (Γ.find? fun y => y.1 == c!"self").map (·.2) = some (builderRTy t) →
      HasType P (builderCtx t) (finishedRTy t) Γ (.var c!"self") (builderRTy t) := fun h => .var h
  refine ⟨_, .runtimeMethod (A.fbb (hself rfl)) .endTable rfl (all1 (A.start (hself rfl))), ?_⟩
  refine block_exprs ?_ ?_
  · intro f hf
    refine .inl ⟨_, _, rfl, .runtimeMethod (A.fbb (hself rfl)) .required rfl (all3 (.var rfl)
      (A.typed_slot (builder_ok t) rfl (List.mem_filter.mp hf).1) (.lit rfl))⟩
  · exact .runtime (d := .butte c!"WIPOffset") (by rw [defOf, wipPath]; exact resolve_butte A.hygienic (builder_ok t) _)
      (.offsetNew _) rfl (all1 (.runtimeMethod (.var rfl) (.value _) rfl all0))

theorem TableAt.add_sig (A : TableAt gm P t gs) {f : Ir.Field} (hf : f ∈ t.fields) {fn : Fn}
    (hfn : addMethod (tName t) (tNs t) f = some fn) :
    sigOf P (builderCtx t) fn = some ([builderRTy t, argRTy f.ty], .unit) := by
  simp only [addMethod, Option.bind_eq_bind, Option.bind_eq_some_iff, Option.pure_def, Option.some.injEq] at hfn
  obtain ⟨w, hw, body, hb, rfl⟩ := hfn
  simp only [sigOf, selfParam, List.mapM_cons, List.mapM_nil,
    selfRef_ty (P := P) (k := builderCtx t) rfl (by simp [builderCtx]), A.argTy (builder_ok t) rfl hf hw, unit_ty]
  rfl

theorem TableAt.pushes (A : TableAt gm P t gs) {f : Ir.Field} (hf : f ∈ t.fields) : ∃ p, pushes f.ty = some p := by
  obtain ⟨k, hk⟩ := A.kind hf
  have ht := A.types f hf
  cases hty : f.ty with
  | builtin b => exact ⟨_, rfl⟩
  | string => exact ⟨_, rfl⟩
  | array e => exact ⟨_, rfl⟩
  | table q => exact ⟨_, rfl⟩
  | union q e vs => exact ⟨_, rfl⟩
  | struct q fs => rw [hty] at ht; exact ht.elim
  | enum q vs b =>
    rw [hty] at hk
    obtain ⟨xs, -, -, hx, -⟩ := Gen.kindOf_enum hk
    exact ⟨_, by rw [Rs.pushes, hx]; rfl⟩

theorem argRTy_scalar {ty : Ir.Ty} (h : ty.isScalar = true) : argRTy ty = irTy ty := by
  cases ty <;> first | rfl | cases h

theorem argTy_scalar {ns : Option QIdent} {ty : Ir.Ty} (h : ty.isScalar = true) {w : Ty} (hw : argTy ns ty = some w) :
    typeToken ns ty (some wipPath) true = some w := by
  unfold Rs.argTy at hw
  split at hw
  · rename_i hu
    cases ty <;> simp_all [Ir.Ty.isUnion, Ir.Ty.isScalar]
  · exact hw

theorem TableAt.add_ok (A : TableAt gm P t gs) {f : Ir.Field} (hf : f ∈ t.fields) {fn : Fn}
    (hfn : addMethod (tName t) (tNs t) f = some fn) : FnOk P (builderCtx t) fn := by
  refine ⟨_, _, A.add_sig hf hfn, ?_⟩
  simp only [addMethod, Option.bind_eq_bind, Option.bind_eq_some_iff, Option.pure_def, Option.some.injEq] at hfn
  obtain ⟨w, hw, body, hb, rfl⟩ := hfn
  have hus := A.usable f hf
  have hne := ne_self hus
  have hne' : (c!"self" == f.ident) = false := by simpa using Ne.symm hne
  refine ⟨by simpa [selfParam] using Ne.symm hne, ?_, ?_⟩
  · intro p hp
    simp only [List.mem_cons, List.not_mem_nil, or_false] at hp
    rcases hp with rfl | rfl
    · simp [selfParam, unbindable]
    · exact bindable hus
  · obtain ⟨p, hp⟩ := A.pushes hf
    obtain ⟨kd, hk⟩ := A.kind hf
    have hpt := pushTy_token (sc := (builderCtx t).sc) A.nodup A.hygienic (builder_ok t) (A.types f hf)
      (A.tyPaths (builder_ok t) rfl hf) hw hp
    have hty := A.argTy (builder_ok t) rfl hf hw
    have hself : HasType P (builderCtx t) .unit [(c!"self", builderRTy t), (f.ident, argRTy f.ty)] (.var c!"self")
      (builderRTy t) := .var rfl
    have harg : HasType P (builderCtx t) .unit [(c!"self", builderRTy t), (f.ident, argRTy f.ty)] (.var f.ident)
        (argRTy f.ty) := .var (by simp [List.find?_cons, hne'])
    have hslot := A.typed_slot (k := builderCtx t) (ret := .unit) (Γ := [(c!"self", builderRTy t), (f.ident, argRTy f.ty)])
      (builder_ok t) rfl hf
    have halways := HasType.methodAt (A.fbb hself) (.pushSlotAlways hpt hty) rfl (all2 hslot harg)
    refine ⟨⟨.unit, ?_⟩, .unit⟩
    unfold addBody at hb
    split at hb
    · rename_i hsc
      split at hb
      · rename_i d hd
        simp only [Option.map_eq_some_iff] at hb
        obtain ⟨v, hv, rfl⟩ := hb
        rw [hd] at hk
        have hdv := typed_defaultValue (k := builderCtx t) (ret := .unit)
          (Γ := [(c!"self", builderRTy t), (f.ident, argRTy f.ty)]) A.nodup (isUnion_of_scalar hsc) (A.types f hf) (A.tyPaths (builder_ok t) rfl hf) hk
          (argTy_scalar hsc hw) hv
        rw [← argRTy_scalar hsc] at hdv
        exact .methodAt (A.fbb hself) (.pushSlot hpt hty) rfl (all3 hslot harg hdv)
      · cases hb
        exact halways
    · cases hb
      exact halways

/-! ### The arguments -/

/-- The declaration of the arguments. -/
def ArgsAt (P : Program) (t : Ir.Table) : Prop := ∃ args, t.fields.mapM (argField (tNs t)) = some args ∧
  itemOf P (tMod t) (tName t ++ c!"Args") = some (.struct (tName t ++ c!"Args") [] args)

theorem mapM_image {α β γ : Type} {R : α → β → Prop} {h : β → Option γ} {g : α → γ} {l : List α} {l' : List β}
    (hl : List.Forall₂ R l l') (hR : ∀ a ∈ l, ∀ b, R a b → h b = some (g a)) : l'.mapM h = some (l.map g) := by
  induction hl with
  | nil => rfl
  | cons hab _ ih =>
    have h1 := hR _ (by simp) _ hab
    have h2 := ih fun a ha => hR a (by simp [ha])
    simp [h1, h2]

theorem map_image {α β γ : Type} {R : α → β → Prop} {h : β → γ} {g : α → γ} {l : List α} {l' : List β}
    (hl : List.Forall₂ R l l') (hR : ∀ a ∈ l, ∀ b, R a b → h b = g a) : l'.map h = l.map g := by
  induction hl with
  | nil => rfl
  | cons hab _ ih => rw [List.map_cons, List.map_cons, hR _ (by simp) _ hab, ih fun a ha => hR a (by simp [ha])]

theorem zip_image {α β γ : Type} {R : α → β → Prop} {g : α → γ} {l : List α} {l' : List β} {p : β × γ}
    (hl : List.Forall₂ R l l') (hp : p ∈ l'.zip (l.map g)) : ∃ a ∈ l, R a p.1 ∧ p.2 = g a := by
  induction hl with
  | nil => simp at hp
  | @cons a b l l' hab _ ih =>
    rw [List.map_cons, List.zip_cons_cons, List.mem_cons] at hp
    rcases hp with rfl | hp
    · exact ⟨a, by simp, hab, rfl⟩
    · obtain ⟨a', ha, h⟩ := ih hp
      exact ⟨a', by simp [ha], h⟩

theorem TableAt.args_types (A : TableAt gm P t gs) {k : TCtx} (hsc : k.sc.Ok) (hm : k.sc.module = tMod t)
    {args : List (Str × Ty)} (ha : t.fields.mapM (argField (tNs t)) = some args) :
    args.mapM (fun f => (tyOf P k f.2).map (f.1, ·)) = some (t.fields.map fun f => (f.ident, fieldArgTy f)) ∧
      args.mapM (fun f => tyOf P k f.2) = some (t.fields.map fieldArgTy) := by
  constructor
  · refine mapM_image (mapM_forall₂ ha) fun f hf a hfa => ?_
    obtain ⟨h1, h2⟩ := A.argField_ty hsc hm hf hfa
    rw [h1, h2]
    rfl
  · exact mapM_image (mapM_forall₂ ha) fun f hf a hfa => (A.argField_ty hsc hm hf hfa).2

theorem TableAt.fields_args (A : TableAt gm P t gs) (hA : ArgsAt P t) :
    fieldsOf P (argsRTy t) = some (t.fields.map fun f => (f.ident, fieldArgTy f)) := by
  obtain ⟨args, ha, hi⟩ := hA
  simp only [fieldsOf, hi]
  exact (A.args_types (k := declCtx (tMod t) []) (.inl rfl) rfl ha).1

theorem enum_sig {q : QIdent} {b : Ir.EnumBase} {vs : List Ir.EnumVariant} {xs : List (SVal (Gen.enumBaseSTy b))}
    (E : EnumAt P q b vs xs) : fnSig P (modOf q) (QIdent.simple q) none c!"default" =
      some ([], .enum (modOf q) (QIdent.simple q)) := by
  obtain ⟨vl, -, -, -, -, -, -, hd, -⟩ := E.traits
  obtain ⟨vl', hp, -⟩ := E.lits
  have hs : selfOf P (modOf q) (QIdent.simple q) [] = some (.enum (modOf q) (QIdent.simple q)) := by
    simp [selfOf, enum_item hp E.nodup]
  simp only [fnSig, hd, Option.bind_eq_bind, Option.bind_some, hs, sigOf, enumDefaultFn, List.mapM_nil,
    self_ty (P := P) (k := ⟨⟨modOf q, [], some (.item (modOf q) (QIdent.simple q))⟩, some (.enum (modOf q) (QIdent.simple q)), []⟩)
      rfl]
  rfl

/-- The default of an argument. An enum without a default must not have a variant called `default`. -/
theorem TableAt.typed_argDefault (A : TableAt gm P t gs) {f : Ir.Field} (hf : f ∈ t.fields)
    (hr : (!f.required || f.ty.isScalar) = true)
    (hd : ∀ q vs b, f.ty = .enum q vs b → f.default = none → c!"default" ∉ vs.map (·.ident)) {x : Str × Expr}
    (hx : argDefault (tNs t) f = some x) : x.1 = f.ident ∧ HasType P (argsCtx t) ret Γ x.2 (fieldArgTy f) := by
  obtain ⟨kd, hk⟩ := A.kind hf
  have hq := A.tyPaths_to (sc := (argsCtx t).sc) (.inl rfl) rfl hf
  have ht := A.types f hf
  simp only [argDefault, Option.bind_eq_bind, Option.bind_eq_some_iff, Option.pure_def, Option.some.injEq] at hx
  obtain ⟨tok, htok, e, he, rfl⟩ := hx
  refine ⟨rfl, ?_⟩
  have hsc : (argsCtx t).sc.Ok := .inl rfl
  unfold argDefaultExpr at he
  unfold fieldArgTy
  cases hs : f.ty.isScalar with
  | false =>
    rw [hs] at he hr
    simp only [Bool.not_false, if_true, Option.some.injEq] at he
    subst he
    have : f.required = false := by simpa using hr
    simp only [this, Bool.or_false, Bool.false_eq_true, if_false]
    exact .none
  | true =>
    rw [hs] at he
    simp only [Bool.or_true, if_true, Bool.not_true, Bool.false_eq_true, if_false] at he ⊢
    rw [argRTy_scalar hs]
    generalize f.ty = ty at *
    generalize f.default = d at *
    cases ty with
    | builtin b =>
      simp only [typeToken, Option.some.injEq] at htok
      subst htok
      simp only [Ir.Ty.isEnum, Bool.false_eq_true, if_false] at he
      cases d with
      | none =>
        simp only [Option.some.injEq] at he
        subst he
        exact .runtime (d := .prim (Gen.builtinSTy b)) (by
          simp only [defOf, builtinName]
          exact resolve_prim A.hygienic hsc _) (.default _) rfl all0
      | some d =>
        cases d with
        | ident i => simp at he
        | scalar l =>
          simp only [Option.map_eq_some_iff] at he
          obtain ⟨l', hl, rfl⟩ := he
          simp only [kindOf, Option.bind_eq_bind, Option.bind_eq_some_iff, Option.pure_def, Option.some.injEq] at hk
          obtain ⟨v, hv, rfl⟩ := hk
          exact .lit (litTy_of (lit_value hl hv))
    | enum q vs b =>
      have hty := tyOf_token (k := argsCtx t) (wrap := none) A.nodup A.hygienic hsc (by rintro _ ⟨⟩) ht hq htok
      simp only at hty
      have hw := enum_token htok
      subst hw
      simp only [Ir.Ty.isEnum, if_true] at he
      simp only [kindOf, Option.bind_eq_bind, Option.bind_eq_some_iff] at hk
      obtain ⟨xs, hx, hk⟩ := hk
      have hl : Leads P (argsCtx t).sc (tNs t) q := (hq q (by simp [Gen.tyPaths])).1
      cases d with
      | none =>
        simp only [Option.some.injEq] at he
        subst he
        have E : EnumAt P q b vs xs := ⟨A.hygienic, A.nodup, hx, ht⟩
        refine .call hty rfl ?_ (enum_sig E) rfl all0
        rw [irTy, variantsOf_enum A.nodup ht]
        exact hd q vs b rfl rfl
      | some d =>
        simp only [Option.bind_eq_some_iff] at hk
        obtain ⟨j, hj, -⟩ := hk
        cases d with
        | scalar s => simp at he
        | ident i =>
          simp only [Option.map_eq_some_iff] at he
          obtain ⟨i', hi, rfl⟩ := he
          have := formatIdent_eq hi
          subst this
          simp only [Gen.enumDefault] at hj
          obtain ⟨h1, h2, -⟩ := List.findIdx?_eq_some_iff_getElem.mp hj
          have h2 : vs[j].ident = i' := by simpa using h2
          exact typed_variant A.nodup ht hl hx (by rw [← h2]; exact List.mem_map_of_mem (List.getElem_mem h1))
    | struct q fs => exact ht.elim
    | _ => cases hs

theorem TableAt.default_sig : sigOf P (argsCtx t) (defaultFn ds) = some ([], argsRTy t) := by
  simp only [sigOf, defaultFn, List.mapM_nil, self_ty (P := P) (k := argsCtx t) rfl]
  rfl

theorem TableAt.default_ok (A : TableAt gm P t gs) (hA : ArgsAt P t) (hc : canDefault t.fields = true)
    (hd : ∀ f ∈ t.fields, ∀ q vs b, f.ty = .enum q vs b → f.default = none → c!"default" ∉ vs.map (·.ident))
    {ds : List (Str × Expr)} (hds : t.fields.mapM (argDefault (tNs t)) = some ds) : FnOk P (argsCtx t) (defaultFn ds) := by
  refine ⟨_, _, TableAt.default_sig, by simp [defaultFn], by simp [defaultFn], ?_⟩
  have hfa := mapM_forall₂ hds
  simp only [canDefault, List.all_eq_true] at hc
  have hty : ∀ f ∈ t.fields, ∀ x, argDefault (tNs t) f = some x → x.1 = f.ident ∧
      HasType P (argsCtx t) (argsRTy t) [] x.2 (fieldArgTy f) := fun f hf x hx => A.typed_argDefault hf (hc f hf) (hd f hf) hx
  refine .struct (self_ty rfl) (A.fields_args hA) ?_ ?_
  · rw [List.map_map]
    exact map_image hfa fun f hf x hx => (hty f hf x hx).1
  · intro p hp
    obtain ⟨f, hf, hx, he⟩ := zip_image hfa hp
    rw [he]
    exact (hty f hf _ hx).2

end

end Butte.Rs
