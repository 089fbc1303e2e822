import Verif.Rs.TypedTable
/-
The accessors of a table are well-typed.
-/
namespace Butte.Rs
open Ir (QIdent Node Ident itemsOf Translates)
open Gen (formatIdent formatIdent_eq GField Kind kindOf)

section
variable {gm md : Mode} {P : Program} {t : Ir.Table} {gs : List GField} {ret : RTy} {Γ : Types}

theorem TableAt.typed_slot (A : TableAt gm P t gs) {k : TCtx} (hsc : k.sc.Ok) (hm : k.sc.module = tMod t) {f : Ir.Field}
    (hf : f ∈ t.fields) : HasType P k ret Γ (slotExpr (tName t) f) (.prim .u16) := by
  obtain ⟨i, hi⟩ := List.mem_iff_getElem?.mp hf
  obtain ⟨g, hg, -⟩ := A.fields i f hi
  refine .const (m := tMod t) (n := tName t) ?_ ?_ ?_
  · simp only [defOf]
    rw [← hm]
    exact resolve_own A.hygienic hsc (by rw [hm]; exact A.own)
  · simp only [enumOf, A.item, tableStruct]
  · rw [A.const i f g hi hg]
    rfl

/-- The context of the accessors. -/
abbrev accCtx (t : Ir.Table) : TCtx := tableCtx t [c!"B"] (.param c!"B") []

/-- `self` has the type of the table. -/
def SelfIs (t : Ir.Table) (Γ : Types) : Prop :=
  (Γ.find? fun y => y.1 == c!"self").map (·.2) = some (.structApp (tMod t) (tName t) (.param c!"B"))

theorem TableAt.typed_get (A : TableAt gm P t gs) (hΓ : SelfIs t Γ) {f : Ir.Field} (hf : f ∈ t.fields) {w : Ty}
    {F : FollowTy} (hF : followTy P (accCtx t).sc w = some F) {d : Expr}
    (hd : HasType P (accCtx t) ret Γ d (.option F.inner)) :
    HasType P (accCtx t) ret Γ (getExpr (tName t) f w d) (.result (.option F.inner) .error) := by
  refine .methodAt (s := .butteApp c!"Table" (.param c!"B")) (.field (.var hΓ) ?_) (.get hF) rfl
    (all2 (A.typed_slot (.inr rfl) rfl hf) hd)
  simp only [fieldTy, A.fields_table]
  rfl

theorem typed_missing (hh : Hygienic P) {k : TCtx} (hsc : k.sc.Ok) (snake : Str) :
    HasType P k ret Γ (missing snake) .error :=
  .fieldMissing (by rw [errorTy, defOf]; exact resolve_butte hh hsc _) (.lit rfl)

/-- The type that an accessor returns. -/
def accRTy (f : Ir.Field) : RTy := .result (if f.required then irTy f.ty else .option (irTy f.ty)) .error

theorem TableAt.acc_sig (A : TableAt gm P t gs) {f : Ir.Field} (hf : f ∈ t.fields) {fn : Fn}
    (hfn : Rs.accessor (tName t) (tNs t) f = some fn) :
    sigOf P (accCtx t) fn = some ([.structApp (tMod t) (tName t) (.param c!"B")], accRTy f) := by
  simp only [Rs.accessor, Option.bind_eq_bind, Option.bind_eq_some_iff, Option.pure_def, Option.some.injEq] at hfn
  obtain ⟨snake, hs, r, hr, w, hw, dflt, hd, body, hb, rfl⟩ := hfn
  have hsc : (accCtx t).sc.Ok := .inr rfl
  have h1 := tyOf_token (k := accCtx t) (wrap := some c!"ForwardsUOffset") (outer := false) A.nodup A.hygienic hsc
    (by rintro _ ⟨⟩; decide) (A.types f hf) (A.tyPaths_to hsc rfl hf) hr
  simp only at h1
  have h2 := selfRef_ty (P := P) (k := accCtx t) rfl (by simp [accCtx, tableCtx])
  simp only [sigOf, selfParam, List.mapM_cons, List.mapM_nil, h2]
  have h3 : tyOf P (accCtx t) (resultTy (if f.required then r else optionTy r)) = some (accRTy f) := by
    refine resultTy_ty A.hygienic hsc ?_
    split
    · exact h1
    · exact optionTy_ty A.hygienic hsc h1
  rw [h3]
  rfl

theorem TableAt.typed_plain (A : TableAt gm P t gs) (hΓ : SelfIs t Γ) {f : Ir.Field} (hf : f ∈ t.fields)
    (hu : f.ty.isUnion = false) {snake : Str} {w : Ty} (hw : typeToken (tNs t) f.ty (some fwdPath) true = some w) {d : Expr}
    (hd : getDefault w f.default = some d) :
    HasType P (accCtx t) (accRTy f) Γ (plainBody (tName t) f snake w d) (accRTy f) := by
  obtain ⟨k, hk⟩ := A.kind hf
  obtain ⟨F, hF, -⟩ := fetch_plain hk hu
  have hFt := followTy_token (sc := (accCtx t).sc) A.nodup A.hygienic (.inr rfl) (A.types f hf)
    (A.tyPaths (.inr rfl) rfl hf) hw hF
  have hFi := (follows_ty hF).2
  have hdd := typed_getDefault (k := accCtx t) (ret := accRTy f) (Γ := Γ) A.nodup hu (A.types f hf)
    (A.tyPaths (.inr rfl) rfl hf) hk hw hd
  rw [← hFi] at hdd
  have hg := A.typed_get hΓ hf hFt hdd
  rw [hFi] at hg
  unfold plainBody accRTy
  split
  · rename_i hr
    exact .runtimeMethod (.try (by simpa [accRTy, hr] using hg) rfl) (.okOr _ _) rfl
      (all1 (typed_missing A.hygienic (.inr rfl) _))
  · rename_i hr
    simpa [accRTy, hr] using hg

/-- The tag of a union. -/
theorem TableAt.tag_field (A : TableAt gm P t gs) {f : Ir.Field} (hf : f ∈ t.fields) {q e : QIdent}
    {vs : List Ir.UnionVariant} (hty : f.ty = .union q e vs) : ∃ ft ∈ t.fields, ∃ evs b xs, ft.ty = .enum e evs b ∧
      Heck.snake ft.ident = Heck.snake f.ident ++ c!"_type" ∧ ft.required = f.required ∧
      evs.map (·.ident) = c!"None" :: vs.map (·.ident) ∧ Gen.enumValues (Gen.enumBaseSTy b) evs = some xs := by
  have ht := A.tags f hf
  unfold Gen.unionTagOk at ht
  rw [hty] at ht
  simp only [List.any_eq_true, Bool.and_eq_true, beq_iff_eq] at ht
  obtain ⟨ft, hft, ⟨h1, h2⟩, h3⟩ := ht
  split at h3
  swap
  · cases h3
  rename_i e' evs b hte
  simp only [Bool.and_eq_true, beq_iff_eq] at h3
  obtain ⟨rfl, hids⟩ := h3
  obtain ⟨k, hk⟩ := A.kind hft
  rw [hte] at hk
  obtain ⟨xs, -, -, hx, -⟩ := Gen.kindOf_enum hk
  exact ⟨ft, hft, evs, b, xs, hte, h1, h2, hids, hx⟩

/-- The call of the tag's accessor. -/
theorem TableAt.typed_tag (A : TableAt gm P t gs) (hΓ : SelfIs t Γ) {ft : Ir.Field} (hft : ft ∈ t.fields) :
    HasType P (accCtx t) ret Γ (.method (.var c!"self") (Heck.snake ft.ident) [])
      (.result (if ft.required then RTy.subst c!"B" (.param c!"B") (irTy ft.ty)
        else .option (RTy.subst c!"B" (.param c!"B") (irTy ft.ty))) .error) := by
  obtain ⟨fn, hfn, hfo⟩ := A.accessor ft hft
  have hsig := A.acc_sig hft hfn
  have hps : fn.params = [selfParam] := by
    simp only [Rs.accessor, Option.bind_eq_bind, Option.bind_eq_some_iff, Option.pure_def, Option.some.injEq] at hfn
    obtain ⟨snake, hs, r, hr, w, hw, dflt, hd, body, hb, rfl⟩ := hfn
    rfl
  refine .method (s := .structApp (tMod t) (tName t) (.param c!"B")) (ts := []) (.var hΓ) rfl ?_ ?_ rfl all0
  · simp [isMethod, hfo, hps, selfParam]
  · have hs : selfOf P (tMod t) (tName t) [c!"B"] = some (.structApp (tMod t) (tName t) (.param c!"B")) := by
      simp [selfOf, A.item, tableStruct]
    simp only [fnSig, hfo, Option.bind_eq_bind, Option.bind_some, hs]
    rw [show (⟨⟨tMod t, [c!"B"], some (.item (tMod t) (tName t))⟩, some (.structApp (tMod t) (tName t) (.param c!"B")), []⟩ : TCtx)
      = accCtx t from rfl, hsig]
    simp only [Option.bind_some, accRTy]
    by_cases hr : ft.required <;> simp [hr, RTy.subst, RTy.error]

/-- The data of a member. -/
theorem member_ty (hn : P.names.Nodup) (hh : Hygienic P) {q e : QIdent} {vs : List Ir.UnionVariant}
    (ht : HasTy P (.union q e vs)) (hms : ∀ v ∈ vs, HasTy P v.ty)
    (hl : ∀ v ∈ vs, ∀ x ∈ Gen.tyPaths v.ty, LeadsTo P (declCtx (modOf q) []).sc (QIdent.namespace q) x)
    (hnd : (vs.map (·.ident)).Nodup) {v : Ir.UnionVariant} (hv : v ∈ vs) :
    memberTy P (modOf q) (QIdent.simple q) v.ident = some (irTy v.ty) := by
  obtain ⟨es, us, -, hus, hpl⟩ := ht
  have hfa := mapM_forall₂ hus
  have hnames := map_of_forall₂ (f := fun v : Ir.UnionVariant => v.ident) (g := fun u : Str × Ty => u.1)
    (fun a b h => unionVariant_name h) hfa
  obtain ⟨u, hu, huv⟩ := forall₂_left hfa v hv
  have hune := unionVariant_name huv
  simp only [unionVariant, Option.bind_eq_bind, Option.bind_eq_some_iff, Option.pure_def, Option.some.injEq] at huv
  obtain ⟨w, hw, i, hi, rfl⟩ := huv
  have := formatIdent_eq hi
  subst this
  have hfind : us.find? (fun x => x.1 == v.ident) = some (v.ident, w) := by
    have := filter_fst (l := us) (by rw [hnames]; exact hnd) hu
    rw [← List.head?_filter, this]
    rfl
  have htok := tyOf_token (k := declCtx (modOf q) []) (wrap := none) hn hh (.inl rfl) (by rintro _ ⟨⟩) (hms v hv) (hl v hv) hw
  simp only [memberTy, union_item hpl hn, hfind, Option.bind_some]
  exact htok

/-- The accessor of a union. -/
theorem TableAt.typed_union (A : TableAt gm P t gs) (hΓ : SelfIs t Γ) {f : Ir.Field} (hf : f ∈ t.fields) {q e : QIdent}
    {vs : List Ir.UnionVariant} (hty : f.ty = .union q e vs)
    (hl : ∀ v ∈ vs, ∀ x ∈ Gen.tyPaths v.ty, LeadsTo P (declCtx (modOf q) []).sc (QIdent.namespace q) x) {snake : Str}
    {body : Expr} (hb : unionBody (tName t) (tNs t) f snake q e vs = some body) :
    HasType P (accCtx t) (accRTy f) Γ body (accRTy f) := by
  obtain ⟨ft, hft, evs, b, xs, hte, hsn, hreq, hids, hx⟩ := A.tag_field hf hty
  have hsc : (accCtx t).sc.Ok := .inr rfl
  have hut := A.types f hf
  rw [hty] at hut
  have het := A.types ft hft
  rw [hte] at het
  obtain ⟨kd, hk⟩ := A.kind hf
  have hpaths : ∀ x ∈ q :: e :: vs.flatMap fun v => Gen.tyPaths v.ty, Leads P (accCtx t).sc (tNs t) x := by
    intro x hx
    refine A.leads _ hsc rfl x ?_
    simp only [Gen.paths, List.mem_flatMap]
    refine ⟨f, hf, List.mem_append_right _ ?_⟩
    rw [hty]
    exact hx
  have hq : resolve P (accCtx t).sc (QIdent.relative q (tNs t)) = some (.item (modOf q) (QIdent.simple q)) :=
    hpaths q (by simp)
  have he : resolve P (accCtx t).sc (QIdent.relative e (tNs t)) = some (.item (modOf e) (QIdent.simple e)) :=
    hpaths e (by simp)
  have hndup := (enumValues_some hx).2.2.2.1
  rw [hids, List.nodup_cons] at hndup
  have hmem : ∀ v ∈ vs, memberTy P (modOf q) (QIdent.simple q) v.ident = some (irTy v.ty) := fun v hv =>
    member_ty A.nodup A.hygienic hut (A.members f hf q e vs hty) hl hndup.2 hv
  have hvar := variantsOf_enum A.nodup het
  rw [hids] at hvar
  have hmatch : ∀ c ∈ c!"None" :: vs.map (·.ident), matchPat P (accCtx t).sc
      (.variant (.path (QIdent.relative e (tNs t))) c) (.variant (modOf e) (QIdent.simple e) c) = some true := by
    intro c hc
    rw [matchPat_variant A.nodup het he hx (by rw [hids]; exact hc)]
    simp
  rw [hty] at hk
  obtain ⟨-, fs, hfs, -⟩ := Gen.kindOf_union_iff.mp hk
  have hget : ∀ v ∈ vs, ∀ w, typeToken (tNs t) v.ty (some fwdPath) true = some w → HasType P (accCtx t) (accRTy f) Γ
      (getExpr (tName t) f w .none) (.result (.option (irTy v.ty)) .error) := by
    intro v hv w hw
    obtain ⟨y, -, hy⟩ := forall₂_left (mapM_forall₂ hfs) v hv
    rw [← follows_fty] at hy
    cases hF : follows v.ty with
    | none => rw [hF] at hy; cases hy
    | some F =>
      have hFt := followTy_token (sc := (accCtx t).sc) A.nodup A.hygienic hsc (A.members f hf q e vs hty v hv)
        (fun x hx => hpaths x (by simp only [List.mem_cons, List.mem_flatMap]; exact .inr (.inr ⟨v, hv, hx⟩))) hw hF
      have := A.typed_get (ret := accRTy f) hΓ hf hFt .none
      rwa [(follows_ty hF).2] at this
  simp only [unionBody, Option.bind_eq_bind, Option.bind_eq_some_iff, Option.pure_def, Option.some.injEq] at hb
  obtain ⟨up, hup, ep, hep, tag, htg, arms, harms, rfl⟩ := hb
  have := pathTokens_eq hup
  subst this
  have := pathTokens_eq hep
  subst this
  have := formatIdent_eq htg
  subst this
  have hfa := mapM_forall₂ harms
  have htag := A.typed_tag (ret := accRTy f) hΓ hft
  rw [hsn, hte, hreq] at htag
  simp only [irTy, RTy.subst] at htag
  have hpat : ∀ c ∈ c!"None" :: vs.map (·.ident), PatOk P (accCtx t).sc
      (.variant (.path (QIdent.relative e (tNs t))) c) (.enum (modOf e) (QIdent.simple e)) := by
    intro c hc
    exact ⟨he, by rw [hvar]; exact hc⟩
  have hright : ∀ a ∈ arms, ∃ v ∈ vs, (if f.required then requiredArm (tName t) (tNs t) f snake (QIdent.relative q (tNs t))
        (QIdent.relative e (tNs t)) v
      else optionalArm (tName t) (tNs t) f (QIdent.relative q (tNs t)) (QIdent.relative e (tNs t)) v) = some a :=
    fun a ha => forall₂_right hfa a ha
  have hleft : ∀ v ∈ vs, ∃ a ∈ arms, (if f.required then requiredArm (tName t) (tNs t) f snake (QIdent.relative q (tNs t))
        (QIdent.relative e (tNs t)) v
      else optionalArm (tName t) (tNs t) f (QIdent.relative q (tNs t)) (QIdent.relative e (tNs t)) v) = some a :=
    fun v hv => forall₂_left hfa v hv
  cases hr : f.required with
  | true =>
    simp only [hr, if_true] at htag hright hleft ⊢
    have hacc : accRTy f = .result (.union (modOf q) (QIdent.simple q)) .error := by simp [accRTy, hr, hty, irTy]
    rw [hacc] at htag hget ⊢
    refine .ok (.match (.try htag rfl) ?_ (.inr ⟨trivial, ?_⟩) ?_)
    · intro a ha
      rcases List.mem_append.mp ha with ha | ha
      · obtain ⟨v, hv, hva⟩ := hright a ha
        obtain ⟨w, hw, rfl⟩ := requiredArm_eq hva
        exact hpat _ (by simp only [List.mem_cons, List.mem_map]; exact .inr ⟨v, hv, rfl⟩)
      · simp only [List.mem_singleton] at ha
        subst ha
        exact hpat _ (by simp)
    · intro x hxs
      simp only [shapes, hvar, List.mem_map] at hxs
      obtain ⟨c, hc, rfl⟩ := hxs
      refine ⟨.variant (.path (QIdent.relative e (tNs t))) c, ?_, hmatch c hc⟩
      rw [List.map_append, List.mem_append]
      rcases List.mem_cons.mp hc with rfl | hc
      · exact .inr (by simp)
      · obtain ⟨v, hv, rfl⟩ := List.mem_map.mp hc
        obtain ⟨a, ha, hva⟩ := hleft v hv
        obtain ⟨w, hw, rfl⟩ := requiredArm_eq hva
        exact .inl (List.mem_map.mpr ⟨_, ha, rfl⟩)
    · intro a ha
      rcases List.mem_append.mp ha with ha | ha
      · obtain ⟨v, hv, hva⟩ := hright a ha
        obtain ⟨w, hw, rfl⟩ := requiredArm_eq hva
        exact .ctor (by simp only [defOf]; exact hq) (hmem v hv) (.try (.runtimeMethod (.try (hget v hv w hw) rfl) (.okOr _ _) rfl
          (all1 (typed_missing A.hygienic hsc _))) rfl)
      · simp only [List.mem_singleton] at ha
        subst ha
        exact .ret (.err (typed_missing A.hygienic hsc _))
  | false =>
    simp only [hr, Bool.false_eq_true, if_false] at htag hright hleft ⊢
    have hacc : accRTy f = .result (.option (.union (modOf q) (QIdent.simple q))) .error := by simp [accRTy, hr, hty, irTy]
    rw [hacc] at htag hget ⊢
    refine .ok (.match (.try htag rfl) ?_ (.inr ⟨trivial, ?_⟩) ?_)
    · intro a ha
      rcases List.mem_append.mp ha with ha | ha
      · obtain ⟨v, hv, hva⟩ := hright a ha
        obtain ⟨w, hw, rfl⟩ := optionalArm_eq hva
        exact hpat _ (by simp only [List.mem_cons, List.mem_map]; exact .inr ⟨v, hv, rfl⟩)
      · simp only [List.mem_singleton] at ha
        subst ha
        exact ⟨trivial, hpat _ (by simp)⟩
    · intro x hxs
      simp only [shapes, hvar, List.mem_map, List.mem_cons] at hxs
      have hlast : (Pat.or .none (.some (.variant (.path (QIdent.relative e (tNs t))) c!"None"))) ∈
          (arms ++ [(Pat.or .none (.some (.variant (.path (QIdent.relative e (tNs t))) c!"None")), Expr.none)]).map (·.1) := by
        simp
      rcases hxs with rfl | ⟨y, ⟨c, hc, rfl⟩, rfl⟩
      · exact ⟨_, hlast, rfl⟩
      · rcases hc with rfl | hc
        · refine ⟨_, hlast, ?_⟩
          have := hmatch c!"None" (by simp)
          simp only [matchPat] at this ⊢
          rw [this]
          rfl
        · obtain ⟨v, hv, rfl⟩ := hc
          obtain ⟨a, ha, hva⟩ := hleft v hv
          obtain ⟨w, hw, rfl⟩ := optionalArm_eq hva
          refine ⟨.some (.variant (.path (QIdent.relative e (tNs t))) v.ident), ?_, ?_⟩
          · rw [List.map_append, List.mem_append]
            exact .inl (List.mem_map.mpr ⟨_, ha, rfl⟩)
          · simp only [matchPat]
            exact hmatch _ (by simp only [List.mem_cons, List.mem_map]; exact .inr ⟨v, hv, rfl⟩)
    · intro a ha
      rcases List.mem_append.mp ha with ha | ha
      · obtain ⟨v, hv, hva⟩ := hright a ha
        obtain ⟨w, hw, rfl⟩ := optionalArm_eq hva
        exact .mapCtor (.try (hget v hv w hw) rfl) (by simp only [defOf]; exact hq) (hmem v hv)
      · simp only [List.mem_singleton] at ha
        subst ha
        exact .none

/-- The members of the unions of a table, seen from where the unions are declared. -/
def MembersLead (P : Program) (t : Ir.Table) : Prop := ∀ f ∈ t.fields, ∀ q e vs, f.ty = .union q e vs → ∀ v ∈ vs,
  ∀ x ∈ Gen.tyPaths v.ty, LeadsTo P (declCtx (modOf q) []).sc (QIdent.namespace q) x

/-- Accessors. -/
theorem TableAt.acc_ok (A : TableAt gm P t gs) (hU : MembersLead P t) {f : Ir.Field} (hf : f ∈ t.fields) {fn : Fn}
    (hfn : Rs.accessor (tName t) (tNs t) f = some fn) : FnOk P (accCtx t) fn := by
  refine ⟨_, _, A.acc_sig hf hfn, ?_⟩
  simp only [Rs.accessor, Option.bind_eq_bind, Option.bind_eq_some_iff, Option.pure_def, Option.some.injEq] at hfn
  obtain ⟨snake, hs, r, hr, w, hw, dflt, hd, body, hb, rfl⟩ := hfn
  refine ⟨by simp [selfParam], by simp [selfParam, unbindable], ?_⟩
  have hΓ : SelfIs t ([c!"self"].zip [.structApp (tMod t) (tName t) (.param c!"B")]) := rfl
  show HasType P (accCtx t) (accRTy f) _ body (accRTy f)
  unfold accessorBody at hb
  split at hb
  · rename_i q e vs hty
    exact A.typed_union hΓ hf hty (hU f hf q e vs hty) hb
  · rename_i hne
    cases hb
    refine A.typed_plain hΓ hf ?_ hw hd
    cases hty : f.ty with
    | union q e vs => exact (hne q e vs hty).elim
    | _ => rfl

end

end Butte.Rs
