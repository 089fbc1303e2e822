import Verif.Rs.TypeOf
/-
What is emitted for a table is well-typed.
-/
namespace Butte.Rs
open Ir (QIdent Node Ident itemsOf Translates)
open Gen (formatIdent formatIdent_eq GField Kind kindOf)

/-! ### Arguments -/

theorem all0 {Q : Expr → RTy → Prop} : ∀ p ∈ ([] : List Expr).zip ([] : List RTy), Q p.1 p.2 := by simp

theorem all1 {Q : Expr → RTy → Prop} {e : Expr} {t : RTy} (h : Q e t) : ∀ p ∈ [e].zip [t], Q p.1 p.2 := by simpa using h

theorem all2 {Q : Expr → RTy → Prop} {e e' : Expr} {t t' : RTy} (h : Q e t) (h' : Q e' t') :
    ∀ p ∈ [e, e'].zip [t, t'], Q p.1 p.2 := by
  simp only [List.zip_cons_cons, List.zip_nil_left, List.mem_cons, List.not_mem_nil, or_false]
  rintro p (rfl | rfl)
  · exact h
  · exact h'

theorem all3 {Q : Expr → RTy → Prop} {e e' e'' : Expr} {t t' t'' : RTy} (h : Q e t) (h' : Q e' t') (h'' : Q e'' t'') :
    ∀ p ∈ [e, e', e''].zip [t, t', t''], Q p.1 p.2 := by
  simp only [List.zip_cons_cons, List.zip_nil_left, List.mem_cons, List.not_mem_nil, or_false]
  rintro p (rfl | rfl | rfl)
  · exact h
  · exact h'
  · exact h''

theorem forall₂_right {α β : Type} {R : α → β → Prop} {l : List α} {l' : List β} (h : List.Forall₂ R l l') :
    ∀ b ∈ l', ∃ a ∈ l, R a b := by
  induction h with
  | nil => simp
  | cons hab _ ih =>
    intro b hb
    rcases List.mem_cons.mp hb with rfl | hb
    · exact ⟨_, by simp, hab⟩
    · obtain ⟨a, ha, hab⟩ := ih b hb
      exact ⟨a, by simp [ha], hab⟩

theorem mapM_some_of_forall₂ {α β : Type} {f : α → Option β} {l : List α} {l' : List β}
    (h : List.Forall₂ (fun a b => f a = some b) l l') : l.mapM f = some l' := by
  induction h with
  | nil => rfl
  | cons h _ ih => simp [h, ih]

/-! ### Defaults -/

theorem variantLit_idents {base : Str} {vs : List Ir.EnumVariant} {vl : List (Str × Lit)}
    (h : (List.zipIdx vs).mapM (variantLit base) = some vl) : vl.map (·.1) = vs.map (·.ident) := by
  rw [variantLit_names h, List.map_map]
  show List.map (fun x : Ir.EnumVariant × Nat => x.1.ident) _ = _
  rw [show (fun x : Ir.EnumVariant × Nat => x.1.ident) = (fun v => v.ident) ∘ Prod.fst from rfl, ← List.map_map]
  simp

theorem variantsOf_enum {P : Program} (hn : P.names.Nodup) {q : QIdent} {vs : List Ir.EnumVariant} {b : Ir.EnumBase}
    (ht : HasTy P (.enum q vs b)) : variantsOf P (.enum (modOf q) (QIdent.simple q)) = vs.map (·.ident) := by
  obtain ⟨vl, hv, hpl⟩ := ht
  simp only [variantsOf, enum_item hpl hn]
  exact variantLit_idents hv

theorem typed_variant {P : Program} {k : TCtx} {ret : RTy} {Γ : Types} (hn : P.names.Nodup) {q : QIdent}
    {vs : List Ir.EnumVariant} {b : Ir.EnumBase} (ht : HasTy P (.enum q vs b)) {p : List Str}
    (hl : resolve P k.sc p = some (.item (modOf q) (QIdent.simple q))) {xs : List (SVal (Gen.enumBaseSTy b))}
    (hx : Gen.enumValues (Gen.enumBaseSTy b) vs = some xs) {i : Str} (hi : i ∈ vs.map (·.ident)) :
    HasType P k ret Γ (.assoc (.path p) i) (.enum (modOf q) (QIdent.simple q)) := by
  have hvs := variantsOf_enum hn ht
  obtain ⟨vl, hv, hpl⟩ := ht
  exact .variant (by simpa only [defOf] using hl) (by rw [enumOf_placed hn hv hpl hx]; rfl) (by rw [hvs]; exact hi)

theorem litTy_of {t : STy} {l : Lit} {v : SVal t} (h : litValue l = some (.scalar t v)) : litTy l = some (.prim t) := by
  simp only [litTy, h]

theorem typed_defaultValue {P : Program} {k : TCtx} {ret : RTy} {Γ : Types} (hn : P.names.Nodup) {ns : Option QIdent}
    {ty : Ir.Ty} (hu : ty.isUnion = false) (ht : HasTy P ty) (hq : ∀ q ∈ Gen.tyPaths ty, Leads P k.sc ns q) {kd : Kind} {d : Ast.DefaultValue}
    (hk : kindOf ty (some d) = some kd) {w : Option (List Str)} {o : Bool} {tok : Ty} (hw : typeToken ns ty w o = some tok)
    {e : Expr} (he : defaultValue tok d = some e) : HasType P k ret Γ e (irTy ty) := by
  cases ty with
  | builtin b =>
    cases d with
    | ident i => simp [kindOf] at hk
    | scalar sc =>
      simp only [kindOf, Option.bind_eq_bind, Option.bind_eq_some_iff, Option.pure_def, Option.some.injEq] at hk
      obtain ⟨v, hv, rfl⟩ := hk
      simp only [typeToken, Option.some.injEq] at hw
      subst hw
      simp only [defaultValue, Option.bind_eq_bind, Option.bind_eq_some_iff, Option.pure_def, Option.some.injEq] at he
      obtain ⟨l, hl, rfl⟩ := he
      exact .lit (litTy_of (lit_value hl hv))
  | enum q vs b =>
    have := enum_token hw
    subst this
    simp only [kindOf, Option.bind_eq_bind, Option.bind_eq_some_iff] at hk
    obtain ⟨xs, hx, j, hj, -⟩ := hk
    cases d with
    | scalar s => simp [Gen.enumDefault] at hj
    | ident i =>
      simp only [defaultValue, Option.bind_eq_bind, Option.bind_eq_some_iff, Option.pure_def, Option.some.injEq] at he
      obtain ⟨i', hi, rfl⟩ := he
      have := formatIdent_eq hi
      subst this
      simp only [Gen.enumDefault] at hj
      obtain ⟨h1, h2, -⟩ := List.findIdx?_eq_some_iff_getElem.mp hj
      have h2 : vs[j].ident = i' := by simpa using h2
      exact typed_variant hn ht (hq q (by simp [Gen.tyPaths])) hx (by rw [← h2]; exact List.mem_map_of_mem (List.getElem_mem h1))
  | struct q fs => exact ht.elim
  | union q e vs => cases hu
  | string | array t | table q => simp [kindOf] at hk

theorem typed_getDefault {P : Program} {k : TCtx} {ret : RTy} {Γ : Types} (hn : P.names.Nodup) {ns : Option QIdent}
    {ty : Ir.Ty} (hu : ty.isUnion = false) (ht : HasTy P ty) (hq : ∀ q ∈ Gen.tyPaths ty, Leads P k.sc ns q) {kd : Kind} {d : Option Ast.DefaultValue}
    (hk : kindOf ty d = some kd) {w : Option (List Str)} {o : Bool} {tok : Ty} (hw : typeToken ns ty w o = some tok)
    {e : Expr} (he : getDefault tok d = some e) : HasType P k ret Γ e (.option (irTy ty)) := by
  cases d with
  | none =>
    simp only [getDefault, Option.some.injEq] at he
    subst he
    exact .none
  | some d =>
    simp only [getDefault, Option.map_eq_some_iff] at he
    obtain ⟨e', he', rfl⟩ := he
    exact .some (typed_defaultValue hn hu ht hq hk hw he')

/-! ### Contexts -/

theorem LeadsTo.of {P : Program} {sc : Scope} {ns : Option QIdent} {q : QIdent} (h : Leads P sc ns q)
    (h' : Leads P ⟨sc.module, [], none⟩ ns q) : LeadsTo P sc ns q := by
  refine ⟨h, fun hs => ?_⟩
  unfold Leads at h'
  cases hr : QIdent.relative q ns with
  | nil => rw [hr] at hs; cases hs
  | cons s p =>
    rw [hr] at hs h'
    simp only [List.head?_cons, Option.some.injEq] at hs
    subst hs
    simp [resolve] at h'

theorem param_ty {P : Program} {k : TCtx} (hk : k.sc.generics = [c!"B"]) : pathTy P k [c!"B"] = some (.param c!"B") := by
  have h : resolve P k.sc [c!"B"] = some (.param c!"B") := by simp [resolve, hk]
  have : c!"B" ≠ c!"Self" := by decide
  unfold pathTy
  simp only [this, if_false, h]

theorem tableB_ty {P : Program} {k : TCtx} (hh : Hygienic P) (hk : k.sc.generics = [c!"B"]) :
    tyOf P k tableB = some (.butteApp c!"Table" (.param c!"B")) := by
  simp only [tableB, tyOf, param_ty hk, Option.bind_eq_bind, Option.bind_some]
  exact butteApp_ty hh (.inr hk) (by decide) _

theorem self_ty {P : Program} {k : TCtx} {s : RTy} (hs : k.self = some s) : tyOf P k selfTy = some s := by
  simp only [selfTy, tyOf, pathTy, if_true, hs]

theorem selfRef_ty {P : Program} {k : TCtx} {s : RTy} (hs : k.self = some s) (hd : k.sc.self ≠ some .str) :
    tyOf P k (.ref selfTy) = some s := by
  rw [selfTy, tyOf, resolve_self, if_neg hd]
  exact self_ty hs

theorem selfInner_ty {P : Program} {k : TCtx} {s t : RTy} {x : Str} (hs : k.self = some s) (hv : x ∉ variantsOf P s)
    (ha : (k.assoc.find? fun y => y.1 == x).map (·.2) = some t) : tyOf P k (.path [c!"Self", x]) = some t := by
  simp only [tyOf, pathTy, if_true, hs, hv, if_false, ha]

/-- The context of the functions of a table. -/
def tableCtx (t : Ir.Table) (gs : List Str) (a : RTy) (assoc : List (Str × RTy)) : TCtx :=
  ⟨⟨tMod t, gs, some (.item (tMod t) (tName t))⟩, some (.structApp (tMod t) (tName t) a), assoc⟩

/-- The context of the functions of a table's builder. -/
def builderCtx (t : Ir.Table) : TCtx :=
  ⟨⟨tMod t, [], some (.item (tMod t) (tName t ++ c!"Builder"))⟩, some (.struct (tMod t) (tName t ++ c!"Builder")), []⟩

/-- The context of the functions of a table's arguments. -/
def argsCtx (t : Ir.Table) : TCtx :=
  ⟨⟨tMod t, [], some (.item (tMod t) (tName t ++ c!"Args"))⟩, some (.struct (tMod t) (tName t ++ c!"Args")), []⟩

section
variable {gm md : Mode} {P : Program} {t : Ir.Table} {gs : List GField}

theorem TableAt.leads_to (A : TableAt gm P t gs) {sc : Scope} (hsc : sc.Ok) (hm : sc.module = tMod t) {q : QIdent}
    (hq : q ∈ Gen.paths (.table t)) : LeadsTo P sc (tNs t) q :=
  .of (A.leads sc hsc hm q hq) (A.leads ⟨sc.module, [], none⟩ (.inl rfl) hm q hq)

theorem TableAt.tyPaths_to (A : TableAt gm P t gs) {sc : Scope} (hsc : sc.Ok) (hm : sc.module = tMod t) {f : Ir.Field}
    (hf : f ∈ t.fields) : ∀ q ∈ Gen.tyPaths f.ty, LeadsTo P sc (tNs t) q := by
  intro q hq
  refine A.leads_to hsc hm ?_
  simp only [Gen.paths, List.mem_flatMap]
  exact ⟨f, hf, List.mem_append_left _ hq⟩

/-- The type of the table, with an argument. -/
theorem TableAt.app_ty (A : TableAt gm P t gs) {k : TCtx} (hsc : k.sc.Ok) (hm : k.sc.module = tMod t) {w : Ty} {a : RTy}
    (hw : tyOf P k w = some a) : tyOf P k (.app [tName t] w) = some (.structApp (tMod t) (tName t) a) := by
  have : resolve P k.sc [tName t] = some (.item (tMod t) (tName t)) := by
    rw [← hm]
    exact resolve_own A.hygienic hsc (by rw [hm]; exact A.own)
  simp only [tyOf, hw, Option.bind_eq_bind, Option.bind_some, appTy, this, A.item, tableStruct]

theorem own_struct (hh : Hygienic P) {k : TCtx} (hsc : k.sc.Ok) {n : Str}
    (hn : (⟨k.sc.module, .type, n⟩ : Gen.Item) ∈ P.names) {fs : List (Str × Ty)}
    (hi : itemOf P k.sc.module n = some (.struct n [] fs)) : tyOf P k (.path [n]) = some (.struct k.sc.module n) := by
  rw [tyOf, pathTy_item (resolve_own hh hsc hn), hi]
  simp only [List.head?_cons, ne_eq, Option.some.injEq]
  rintro rfl
  exact hh.plain hn (by decide)

theorem TableAt.builder_ty (A : TableAt gm P t gs) {k : TCtx} (hsc : k.sc.Ok) (hm : k.sc.module = tMod t) :
    tyOf P k (.path [tName t ++ c!"Builder"]) = some (.struct (tMod t) (tName t ++ c!"Builder")) := by
  rw [← hm]
  exact own_struct A.hygienic hsc (by rw [hm]; exact A.ownBuilder) (by rw [hm]; exact A.builderItem)

theorem TableAt.args_ty (A : TableAt gm P t gs) {k : TCtx} (hsc : k.sc.Ok) (hm : k.sc.module = tMod t) :
    tyOf P k (.path [tName t ++ c!"Args"]) = some (.struct (tMod t) (tName t ++ c!"Args")) := by
  obtain ⟨args, hi, -⟩ := A.argsItem
  rw [← hm]
  exact own_struct A.hygienic hsc (by rw [hm]; exact A.ownArgs) (by rw [hm]; exact hi)

/-- The result of `create` and `finish`. -/
theorem TableAt.finished_ty (A : TableAt gm P t gs) {k : TCtx} (hsc : k.sc.Ok) (hm : k.sc.module = tMod t) :
    tyOf P k (.app wipPath (.app [tName t] bytesTy)) = some (.butteApp c!"WIPOffset" (.structApp (tMod t) (tName t) .bytes)) :=
  wipTy_ty A.hygienic hsc (A.app_ty hsc hm (bytesTy_ty A.hygienic hsc))

theorem fbb_ty (hh : Hygienic P) {k : TCtx} (hsc : k.sc.Ok) : tyOf P k (.ref fbbTy) = some (.butte c!"FlatBufferBuilder") := by
  rw [fbbTy, ref_path (by rw [resolve_butte hh hsc]; simp), butteTy hh hsc (by decide)]

/-! ### Fields of the structs -/

theorem TableAt.fields_table (A : TableAt gm P t gs) (a : RTy) :
    fieldsOf P (.structApp (tMod t) (tName t) a) = some [(c!"table", .butteApp c!"Table" a)] := by
  simp only [fieldsOf, A.item, tableStruct, List.mapM_cons, List.mapM_nil,
    tableB_ty (k := declCtx (tMod t) [c!"B"]) A.hygienic rfl]
  rfl

theorem TableAt.fields_builder (A : TableAt gm P t gs) :
    fieldsOf P (.struct (tMod t) (tName t ++ c!"Builder")) = some [(c!"fbb", .butte c!"FlatBufferBuilder"),
      (c!"start", .butteApp c!"WIPOffset" (.butte c!"TableUnfinishedWIPOffset"))] := by
  have h1 : (declCtx (tMod t) []).sc.Ok := .inl rfl
  simp only [fieldsOf, A.builderItem, builderStruct, List.mapM_cons, List.mapM_nil,
    fbb_ty (k := declCtx (tMod t) []) A.hygienic h1,
    wipTy_ty A.hygienic h1 (w := .path [c!"butte", c!"TableUnfinishedWIPOffset"]) (butteTy A.hygienic h1 (by decide))]
  rfl

/-- The type of an argument. -/
def fieldArgTy (f : Ir.Field) : RTy := if f.required || f.ty.isScalar then argRTy f.ty else .option (argRTy f.ty)

/-- The field is kind of what is generated for it. -/
theorem TableAt.kind (A : TableAt gm P t gs) {f : Ir.Field} (hf : f ∈ t.fields) : ∃ k, kindOf f.ty f.default = some k := by
  obtain ⟨i, hi⟩ := List.mem_iff_getElem?.mp hf
  obtain ⟨g, -, -, -, -, hk⟩ := A.fields i f hi
  exact ⟨_, hk⟩

theorem TableAt.argTy (A : TableAt gm P t gs) {k : TCtx} (hsc : k.sc.Ok) (hm : k.sc.module = tMod t) {f : Ir.Field}
    (hf : f ∈ t.fields) {w : Ty} (hw : argTy (tNs t) f.ty = some w) : tyOf P k w = some (argRTy f.ty) :=
  tyOf_argTy A.nodup A.hygienic hsc (A.types f hf) (A.tyPaths_to hsc hm hf) hw

theorem TableAt.argField_ty (A : TableAt gm P t gs) {k : TCtx} (hsc : k.sc.Ok) (hm : k.sc.module = tMod t) {f : Ir.Field}
    (hf : f ∈ t.fields) {a : Str × Ty} (ha : argField (tNs t) f = some a) :
    a.1 = f.ident ∧ tyOf P k a.2 = some (fieldArgTy f) := by
  simp only [argField, Option.bind_eq_bind, Option.bind_eq_some_iff, Option.pure_def, Option.some.injEq] at ha
  obtain ⟨w, hw, -, -, rfl⟩ := ha
  refine ⟨rfl, ?_⟩
  have := A.argTy hsc hm hf hw
  unfold fieldArgTy
  split
  · exact this
  · exact optionTy_ty A.hygienic hsc this

theorem find_field {α : Type} {fs : List α} {g : α → Str} {v : α → RTy} (h : (fs.map g).Nodup) {f : α} (hf : f ∈ fs) :
    ((fs.map fun f => (g f, v f)).find? fun y => y.1 == g f).map (·.2) = some (v f) := by
  induction fs with
  | nil => cases hf
  | cons a fs ih =>
    rw [List.map_cons, List.nodup_cons] at h
    rw [List.map_cons, List.find?_cons]
    rcases List.mem_cons.mp hf with rfl | hf
    · simp
    · have : (g a == g f) = false := by
        rw [beq_eq_false_iff_ne]
        intro e
        exact h.1 (e ▸ List.mem_map_of_mem hf)
      simp only [this]
      exact ih h.2 hf

end

end Butte.Rs
