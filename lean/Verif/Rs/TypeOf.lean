import Verif.Rs.Typing
import Verif.Rs.Default
/-
The types that the emitted program writes, and what they stand for.
-/
namespace Butte.Rs
open Ir (QIdent Node Ident itemsOf Translates)
open Gen (formatIdent formatIdent_eq)

/-- Something that is behind an offset gets wrapped. -/
def wrapRTy (w : Str) : Ir.Ty → RTy → RTy
  | .builtin _, r | .struct .., r | .enum .., r => r
  | _, r => .butteApp w r

/-- The type of the values of a type of the schema. -/
def irTy : Ir.Ty → RTy
  | .builtin b => .prim (Gen.builtinSTy b)
  | .string => .str
  | .array t => .butteApp c!"Vector" (wrapRTy c!"ForwardsUOffset" t (irTy t))
  | .table q => .structApp (modOf q) (QIdent.simple q) .bytes
  | .struct q _ => .struct (modOf q) (QIdent.simple q)
  | .enum q _ _ => .enum (modOf q) (QIdent.simple q)
  | .union q _ _ => .union (modOf q) (QIdent.simple q)

theorem follows_ty : ∀ {ty : Ir.Ty} {F : FollowTy}, follows ty = some F →
    F.ty = wrapRTy c!"ForwardsUOffset" ty (irTy ty) ∧ F.inner = irTy ty
  | .builtin b, F, h | .string, F, h | .table q, F, h => by
    simp only [follows, Option.some.injEq] at h
    subst h
    exact ⟨rfl, rfl⟩
  | .array t, F, h => by
    simp only [follows, Option.map_eq_some_iff] at h
    obtain ⟨e, he, rfl⟩ := h
    have := (follows_ty he).1
    simp [FollowTy.ty, FollowTy.inner, irTy, wrapRTy, this]
  | .struct .., F, h | .union .., F, h => by simp [follows] at h
  | .enum q vs b, F, h => by
    simp only [follows, Option.map_eq_some_iff] at h
    obtain ⟨e, he, rfl⟩ := h
    exact ⟨rfl, rfl⟩

/-- A relative path that means what it should, and does not start with `Self`. -/
def LeadsTo (P : Program) (sc : Scope) (ns : Option QIdent) (q : QIdent) : Prop :=
  Leads P sc ns q ∧ (QIdent.relative q ns).head? ≠ some c!"Self"

theorem Setting.leads_to {gm : Mode} {E : List Ast.Element} {out : List Node} {P : Program} (S : Setting gm E out P)
    {x : List Ident × Node} (hx : x ∈ itemsOf out) {q : QIdent} (hq : q ∈ Gen.paths x.2) {sc : Scope} (hsc : sc.Ok)
    (hm : sc.module = modOf x.2.ident) : LeadsTo P sc (QIdent.namespace x.2.ident) q := by
  refine ⟨S.leadsTo hx hq hsc hm, ?_⟩
  have h := (S.leads x hx q hq).2
  intro hs
  cases hr : QIdent.relative q (QIdent.namespace x.2.ident) with
  | nil => rw [hr] at hs; cases hs
  | cons s p =>
    rw [hr] at hs h
    simp only [List.head?_cons, Option.some.injEq] at hs
    subst hs
    rcases lookup_head h with e | hm
    · cases e
    · exact S.hygienic.plain hm (by decide)

theorem pathTy_butte {P : Program} {k : TCtx} {s : Str} {p : List Str} {b : Str} (hs : s ≠ c!"Self")
    (h : resolve P k.sc (s :: p) = some (.butte b)) : pathTy P k (s :: p) =
      if b = c!"VOffsetT" then some (.prim .u16) else if b ∈ butteTypes then some (.butte b) else none := by
  unfold pathTy
  simp only [hs, if_false, h]

theorem pathTy_item {P : Program} {k : TCtx} {p : List Str} {m : List Str} {n : Str}
    (h : resolve P k.sc p = some (.item m n)) (hs : p.head? ≠ some c!"Self") :
    pathTy P k p = match itemOf P m n with
        | some (.enum ..) => some (.enum m n)
        | some (.union ..) => some (.union m n)
        | some (.struct _ [] _) => some (.struct m n)
        | _ => none := by
  cases p with
  | nil => simp [resolve] at h
  | cons s p =>
    have : s ≠ c!"Self" := by simpa using hs
    unfold pathTy
    simp only [this, if_false, h]
    rfl

theorem pathTy_prim {P : Program} {k : TCtx} (hh : Hygienic P) (hsc : k.sc.Ok) (t : STy) :
    pathTy P k [primName t] = some (.prim t) := by
  have : primName t ≠ c!"Self" := by cases t <;> decide
  unfold pathTy
  simp only [this, if_false, resolve_prim hh hsc]

theorem ref_path {P : Program} {k : TCtx} {p : List Str} (h : resolve P k.sc p ≠ some .str) :
    tyOf P k (.ref (.path p)) = pathTy P k p := by
  rw [tyOf, if_neg h]

theorem butteTy {P : Program} {k : TCtx} (hh : Hygienic P) (hsc : k.sc.Ok) {b : Str} (hb : b ∈ butteTypes) :
    pathTy P k [c!"butte", b] = some (.butte b) := by
  have : b ≠ c!"VOffsetT" := by rintro rfl; exact absurd hb (by decide)
  rw [pathTy_butte (by decide) (resolve_butte hh hsc b), if_neg this, if_pos hb]

theorem butteApp_ty {P : Program} {k : TCtx} (hh : Hygienic P) (hsc : k.sc.Ok) {b : Str} (hb : b ∈ butteApps) (t : RTy) :
    appTy P k [c!"butte", b] t = some (.butteApp b t) := by
  simp only [appTy, resolve_butte hh hsc, hb, if_true]

theorem strTy_ty {P : Program} {k : TCtx} (hh : Hygienic P) (hsc : k.sc.Ok) : tyOf P k strTy = some .str := by
  simp only [strTy, tyOf, resolve_str hh hsc, if_true]

theorem bytesTy_ty {P : Program} {k : TCtx} (hh : Hygienic P) (hsc : k.sc.Ok) : tyOf P k bytesTy = some .bytes := by
  have h8 : resolve P k.sc [c!"u8"] = some (.prim .u8) := resolve_prim hh hsc .u8
  simp only [bytesTy, tyOf, h8, if_true]

theorem usize_ty {P : Program} {k : TCtx} (hh : Hygienic P) (hsc : k.sc.Ok) : pathTy P k [c!"usize"] = some .usize := by
  have h : resolve P k.sc [c!"usize"] = some .usize := by
    rw [resolve_outer hh hsc (by decide) (by decide) (by decide) (by decide)]
    rfl
  have : c!"usize" ≠ c!"Self" := by decide
  unfold pathTy
  simp only [this, if_false, h]

theorem errorTy_ty {P : Program} {k : TCtx} (hh : Hygienic P) (hsc : k.sc.Ok) : tyOf P k errorTy = some .error := by
  rw [errorTy, tyOf, butteTy hh hsc (by decide)]
  rfl

theorem optionTy_ty {P : Program} {k : TCtx} (hh : Hygienic P) (hsc : k.sc.Ok) {w : Ty} {t : RTy} (h : tyOf P k w = some t) :
    tyOf P k (optionTy w) = some (.option t) := by
  have : resolve P k.sc [c!"Option"] = some (.std c!"Option") := by
    rw [resolve_outer hh hsc (by decide) (by decide) (by decide) (by decide)]
    rfl
  simp only [optionTy, tyOf, h, Option.bind_eq_bind, Option.bind_some, appTy, this, if_true]

theorem resolve_result {P : Program} {sc : Scope} (hh : Hygienic P) (hsc : sc.Ok) :
    resolve P sc [c!"Result"] = some (.std c!"Result") := by
  rw [resolve_outer hh hsc (by decide) (by decide) (by decide) (by decide)]
  rfl

theorem app2_ty {P : Program} {k : TCtx} (hh : Hygienic P) (hsc : k.sc.Ok) {w v : Ty} {t u : RTy} (h : tyOf P k w = some t)
    (hv : tyOf P k v = some u) : tyOf P k (.app2 [c!"Result"] w v) = some (.result t u) := by
  simp only [tyOf, h, hv, Option.bind_eq_bind, Option.bind_some, resolve_result hh hsc, if_true]

theorem resultTy_ty {P : Program} {k : TCtx} (hh : Hygienic P) (hsc : k.sc.Ok) {w : Ty} {t : RTy} (h : tyOf P k w = some t) :
    tyOf P k (resultTy w) = some (.result t .error) := app2_ty hh hsc h (errorTy_ty hh hsc)

theorem wipTy_ty {P : Program} {k : TCtx} (hh : Hygienic P) (hsc : k.sc.Ok) {w : Ty} {t : RTy} (h : tyOf P k w = some t) :
    tyOf P k (.app wipPath w) = some (.butteApp c!"WIPOffset" t) := by
  simp only [wipPath, tyOf, h, Option.bind_eq_bind, Option.bind_some]
  exact butteApp_ty hh hsc (by decide) t

/-- The written type, wrapped with something of the runtime crate, wrapped with nothing, or not wrapped. -/
theorem tyOf_token {P : Program} {k : TCtx} {ns : Option QIdent} (hn : P.names.Nodup) (hh : Hygienic P) (hsc : k.sc.Ok) :
    ∀ {ty : Ir.Ty} {wrap : Option Str} {outer : Bool} {w : Ty}, (∀ b, wrap = some b → b ∈ butteApps) → HasTy P ty →
      (∀ q ∈ Gen.tyPaths ty, LeadsTo P k.sc ns q) → typeToken ns ty (wrap.map fun b => [c!"butte", b]) outer = some w →
      tyOf P k w = some (match wrap, outer with
        | some b, true => wrapRTy b ty (irTy ty)
        | _, _ => irTy ty)
  | .builtin b, wrap, outer, w, _, _, _, hw => by
    simp only [typeToken, Option.some.injEq] at hw
    subst hw
    rw [tyOf, builtinName, pathTy_prim hh hsc]
    cases wrap <;> cases outer <;> rfl
  | .string, wrap, outer, w, hb, _, _, hw => by
    simp only [typeToken, Option.some.injEq] at hw
    subst hw
    cases wrap with
    | none => exact strTy_ty hh hsc
    | some b =>
      cases outer with
      | false => exact strTy_ty hh hsc
      | true =>
        simp only [Option.map_some, wrapped, if_true, tyOf, strTy_ty hh hsc, Option.bind_eq_bind, Option.bind_some,
          butteApp_ty hh hsc (hb b rfl)]
        rfl
  | .array t, wrap, outer, w, hb, ht, hq, hw => by
    simp only [typeToken, Option.bind_eq_bind, Option.bind_eq_some_iff, Option.pure_def, Option.some.injEq] at hw
    obtain ⟨c, hc, rfl⟩ := hw
    have hc' := tyOf_token hn hh hsc (ty := t) (wrap := some c!"ForwardsUOffset") (by rintro _ ⟨⟩; decide) ht hq hc
    have : tyOf P k (.app vectorPath c) = some (irTy (.array t)) := by
      simp only [vectorPath, tyOf, hc', Option.bind_eq_bind, Option.bind_some, butteApp_ty hh hsc (b := c!"Vector") (by decide)]
      rfl
    cases wrap with
    | none => exact this
    | some b =>
      cases outer with
      | false => exact this
      | true =>
        simp only [Option.map_some, wrapped, if_true]
        rw [tyOf, this, Option.bind_eq_bind, Option.bind_some, butteApp_ty hh hsc (hb b rfl)]
        rfl
  | .table q, wrap, outer, w, hb, ht, hq, hw => by
    simp only [typeToken, Option.bind_eq_bind, Option.bind_eq_some_iff, Option.pure_def, Option.some.injEq] at hw
    obtain ⟨p, hp, rfl⟩ := hw
    rw [pathTokens_eq hp]
    have hl : Leads P k.sc ns q := (hq q (by simp [Gen.tyPaths])).1
    unfold Leads at hl
    have : tyOf P k (.app (QIdent.relative q ns) bytesTy) = some (irTy (.table q)) := by
      simp only [tyOf, bytesTy_ty hh hsc, Option.bind_eq_bind, Option.bind_some, appTy, hl, ht.1, tableStruct]
      rfl
    cases wrap with
    | none => exact this
    | some b =>
      cases outer with
      | false => exact this
      | true =>
        simp only [Option.map_some, wrapped, if_true]
        rw [tyOf, this, Option.bind_eq_bind, Option.bind_some, butteApp_ty hh hsc (hb b rfl)]
        rfl
  | .struct .., _, _, _, _, ht, _, _ => ht.elim
  | .enum q vs b, wrap, outer, w, hb, ht, hq, hw => by
    simp only [typeToken, Option.bind_eq_bind, Option.bind_eq_some_iff, Option.pure_def, Option.some.injEq] at hw
    obtain ⟨p, hp, rfl⟩ := hw
    rw [pathTokens_eq hp]
    obtain ⟨hl, hS⟩ : LeadsTo P k.sc ns q := hq q (by simp [Gen.tyPaths])
    obtain ⟨vl, hv, hpl⟩ := ht
    rw [tyOf, pathTy_item hl hS, enum_item hpl hn]
    cases wrap <;> cases outer <;> rfl
  | .union q e vs, wrap, outer, w, hb, ht, hq, hw => by
    simp only [typeToken, Option.bind_eq_bind, Option.bind_eq_some_iff, Option.pure_def, Option.some.injEq] at hw
    obtain ⟨p, hp, rfl⟩ := hw
    rw [pathTokens_eq hp]
    obtain ⟨hl, hS⟩ : LeadsTo P k.sc ns q := hq q (by simp [Gen.tyPaths])
    obtain ⟨es, us, -, -, hpl⟩ := ht
    have : tyOf P k (.path (QIdent.relative q ns)) = some (irTy (.union q e vs)) := by
      rw [tyOf, pathTy_item hl hS, union_item hpl hn]
      rfl
    cases wrap with
    | none => exact this
    | some b =>
      cases outer with
      | false => exact this
      | true =>
        simp only [Option.map_some, wrapped, if_true]
        rw [tyOf, this, Option.bind_eq_bind, Option.bind_some, butteApp_ty hh hsc (hb b rfl)]
        rfl

/-- The type of an argument, not yet optional. -/
def argRTy (ty : Ir.Ty) : RTy :=
  if ty.isUnion then .butteApp c!"WIPOffset" (.butte c!"UnionWIPOffset") else wrapRTy c!"WIPOffset" ty (irTy ty)

theorem tyOf_argTy {P : Program} {k : TCtx} {ns : Option QIdent} (hn : P.names.Nodup) (hh : Hygienic P) (hsc : k.sc.Ok)
    {ty : Ir.Ty} {w : Ty} (ht : HasTy P ty) (hq : ∀ q ∈ Gen.tyPaths ty, LeadsTo P k.sc ns q) (hw : argTy ns ty = some w) :
    tyOf P k w = some (argRTy ty) := by
  unfold argTy at hw
  unfold argRTy
  split at hw
  · rename_i hu
    rw [if_pos hu]
    cases hw
    exact wipTy_ty hh hsc (by rw [tyOf, butteTy hh hsc (by decide)])
  · rename_i hu
    rw [if_neg hu]
    exact tyOf_token hn hh hsc (wrap := some c!"WIPOffset") (by rintro _ ⟨⟩; decide) ht hq hw

end Butte.Rs
