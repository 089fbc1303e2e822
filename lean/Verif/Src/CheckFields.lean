import Verif.Src.CheckEnum
import Verif.Rs.TypedTable
import Verif.Src.FullErase
/-
The types of fields: what they can be used for.
-/
namespace Butte.Src.Check
open Ir (QIdent All₂)
open Rs (Program Hygienic modOf Scope Lit)

/-- What the file has for a type of the schema. -/
def Good (F : File) : Ir.Ty → Prop
  | .builtin _ | .string => True
  | .array t => Good F t
  | .table q => (∃ ns fs, TableTypes F (modOf q) (QIdent.simple q) ns fs) ∧
      (modOf q, Full.tableFollow (QIdent.simple q)) ∈ flatItems [] F.items
  | .union q _ us => ∃ vs, UnionTypes F (modOf q) (QIdent.simple q) (QIdent.namespace q) us vs
  | .struct .. => False
  | .enum q vs b => ∃ ls, EnumTypes F (modOf q) (QIdent.simple q) (Gen.enumBaseSTy b) ls ∧ ls.map (·.1) = vs.map (·.ident)

section
variable {F : File} {m : List Str} {n : Str} {ns : Option QIdent} {fs : List Ir.Field}

/-! ### Tables -/

theorem TableTypes.hasFollow (T : TableTypes F m n ns fs) (hf : (m, Full.tableFollow n) ∈ flatItems [] F.items) (ps : List Str) (r : Region) :
    Implements F ps (.butte c!"Follow") [r] [] (tblTy m n (.ref r false .bytes)) [(c!"Inner", tblTy m n (.ref r false .bytes))] :=
  .mk (rs := [r]) (ts := []) hf ((T.paths (.inl rfl)).butte _ _) (.life (life_means (by decide) (by decide) rfl) .nil)
    (T.ofBytes (T.paths (.inl rfl)) rfl (.inl rfl) (life_means (by decide) (by decide) rfl)) (by simp [WhereHolds]) (.cons ⟨rfl, .self rfl⟩ .nil)

theorem TableTypes.covariant (T : TableTypes F m n ns fs) : CovDef F (.item m n) := by
  obtain ⟨doc, h⟩ := T.struct
  refine .struct h ?_
  intro f hf
  simp only [List.mem_singleton] at hf
  subst hf
  refine .path ((T.paths (gs := [c!"B"]) (.inr rfl)).butte _ _) (.butte rfl) ?_
  intro t ht
  simp only [argTys, List.mem_singleton] at ht
  subst ht
  exact .path (resolve_B _ _ _) (.param _) (by simp [argTys])

/-! ### What types can be used for -/

theorem good_follows {out : Region → Region → Prop} {ps : List Str} {r : Region} (hr : out r r) :
    ∀ {ty : Ir.Ty}, Good F ty → (Gen.followTy ty).isSome → Follows F out ps r (lwrap c!"ForwardsUOffset" ty r) (lty ty r)
  | .builtin _, _, _ => .prim _
  | .string, _, _ => .fwd .str
  | .array t, h, hf => by
    simp only [Gen.followTy, Option.bind_eq_bind, Option.isSome_bind, Option.pure_def, Option.isSome_some] at hf
    have hf' : (Gen.followTy t).isSome := by
      cases h : Gen.followTy t <;> simp [h] at hf ⊢
    exact .fwd (.vector (good_follows hr (ty := t) h hf') fun s hs => by rw [lwrap_regions _ t r s hs]; exact hr)
  | .table q, h, _ => by
    obtain ⟨⟨ns, fs, T⟩, hi⟩ := h
    exact .fwd (.item (T.hasFollow hi ps r) rfl)
  | .enum q vs b, h, _ => by
    obtain ⟨ls, T, -⟩ := h
    exact .item (T.hasFollow ps r) rfl

theorem good_pushes {ps : List Str} {r : Region} {ty : Ir.Ty} (h : Good F ty) : Pushes F ps (larg ty r) := by
  cases ty with
  | builtin b => exact .prim _
  | string => exact .wip _
  | array t => exact .wip _
  | table q => exact .wip _
  | union q e vs => exact .wip _
  | struct q fs => exact h.elim
  | enum q vs b =>
    obtain ⟨ls, T, -⟩ := h
    exact .item (T.hasPush ps)

theorem sub_butte {out : Region → Region → Prop} {b : Str} (hb : (F.kind (.butte b)).isSome) {t u : LTy} (h : Sub F out t u) :
    Sub F out (.butteOf b t) (.butteOf b u) := .app (.butte hb) .nil (.cons h .nil)

theorem good_sub {out : Region → Region → Prop} {r s : Region} (hr : out r s) : ∀ {ty : Ir.Ty}, Good F ty → (∀ q e vs, ty ≠ .union q e vs) →
    (Gen.followTy ty).isSome → Sub F out (lty ty r) (lty ty s)
  | .builtin _, _, _, _ => .refl _
  | .string, _, _, _ => .ref hr (.refl _)
  | .array t, h, _, hf => by
    simp only [Gen.followTy, Option.bind_eq_bind, Option.isSome_bind, Option.pure_def, Option.isSome_some] at hf
    have hf' : (Gen.followTy t).isSome := by
      cases h : Gen.followTy t <;> simp [h] at hf ⊢
    have := good_sub hr (ty := t) h (by rintro q e vs rfl; simp [Gen.followTy] at hf') hf'
    refine .app (.butte rfl) (.cons hr .nil) (.cons ?_ .nil)
    split
    · exact this
    · exact sub_butte rfl this
  | .table q, h, _, _ => by
    obtain ⟨⟨ns, fs, T⟩, hi⟩ := h
    exact .app T.covariant .nil (.cons (.ref hr (.refl _)) .nil)
  | .union q e vs, _, hu, _ => absurd rfl (hu q e vs)
  | .struct .., h, _, _ => h.elim
  | .enum .., _, _, _ => .refl _

theorem follow_of_kind {ty : Ir.Ty} {d : Option Ast.DefaultValue} {kd : Gen.Kind} (h : Gen.kindOf ty d = some kd)
    (hu : ∀ q e vs, ty ≠ .union q e vs) : (Gen.followTy ty).isSome := by
  cases ty with
  | builtin b => rfl
  | string => rfl
  | table q => rfl
  | union q e vs => exact absurd rfl (hu q e vs)
  | struct q fs => cases d <;> simp [Gen.kindOf] at h
  | array t =>
    cases d with
    | some d => simp [Gen.kindOf] at h
    | none =>
      simp only [Gen.kindOf, Option.bind_eq_bind, Option.bind_eq_some_iff] at h
      obtain ⟨e, he, -⟩ := h
      simp [Gen.followTy, he]
  | enum q vs b =>
    simp only [Gen.kindOf, Option.bind_eq_bind, Option.bind_eq_some_iff] at h
    obtain ⟨e, he, -⟩ := h
    simp [Gen.followTy, he]

theorem arg_sub {out : Region → Region → Prop} {r s : Region} (hr : out r s) {ty : Ir.Ty} (h : Good F ty) {d : Option Ast.DefaultValue}
    {kd : Gen.Kind} (hk : Gen.kindOf ty d = some kd) : Sub F out (larg ty r) (larg ty s) := by
  unfold larg
  split
  · exact .refl _
  · rename_i hu
    have hu : ∀ q e vs, ty ≠ .union q e vs := by
      rintro q e vs rfl
      exact hu rfl
    have := good_sub hr h hu (follow_of_kind hk hu)
    unfold lwrap
    split
    · exact this
    · exact sub_butte rfl this

/-! ### Defaults -/

theorem lit_typed {s : Ast.Scalar} {t : STy} {l : Lit} {v : SVal t} (hl : Full.fmtLit s (Full.word (Rs.primName t)) = some l)
    (hv : Gen.literal t s = some v) : litLTy l = some (.prim t) := by
  have : Rs.fmtLit s (.path [Rs.primName t]) = some l := by
    rw [← hl]
    exact (fmtLit_congr rfl s).symm
  simp only [litLTy, Rs.litTy_of (Rs.lit_value this hv)]

/-- A default is a value of its type. -/
theorem default_typed {X : Cx} {Γ : Locals} {ty : Ir.Ty} (hu : ty.isUnion = false) (h : Good F ty) {d : Ast.DefaultValue} {kd : Gen.Kind} (hk : Gen.kindOf ty (some d) = some kd)
    {l : Str} {wrap : Option (List Str)} {o : Bool} {w : Ty} (hw : Full.typeToken ns ty l wrap o = some w) {r : Region} (hm : Means F X.env w (lty ty r))
    {e : Expr} (he : Full.defaultValue w d = some e) : Typed F X Γ e (lty ty r) := by
  cases ty with
  | builtin b =>
    cases d with
    | ident i => simp [Gen.kindOf] at hk
    | scalar sc =>
      simp only [Gen.kindOf, Option.bind_eq_bind, Option.bind_eq_some_iff, Option.pure_def, Option.some.injEq] at hk
      obtain ⟨v, hv, rfl⟩ := hk
      simp only [Full.typeToken, Option.some.injEq] at hw
      subst hw
      simp only [Full.defaultValue, Option.bind_eq_bind, Option.bind_eq_some_iff, Option.pure_def, Option.some.injEq] at he
      obtain ⟨l, hl, rfl⟩ := he
      exact .lit (lit_typed hl hv)
  | enum q vs b =>
    simp only [Gen.kindOf, Option.bind_eq_bind, Option.bind_eq_some_iff] at hk
    obtain ⟨xs, hx, j, hj, -⟩ := hk
    cases d with
    | scalar s => simp [Gen.enumDefault] at hj
    | ident i =>
      simp only [Full.defaultValue, Option.bind_eq_bind, Option.bind_eq_some_iff, Option.pure_def, Option.some.injEq] at he
      obtain ⟨i', hi, rfl⟩ := he
      obtain rfl := Gen.formatIdent_eq hi
      simp only [Gen.enumDefault] at hj
      obtain ⟨h1, h2, -⟩ := List.findIdx?_eq_some_iff_getElem.mp hj
      have h2 : vs[j].ident = i' := by simpa using h2
      obtain ⟨ls, T, hls⟩ := h
      have : i' ∈ ls.map (·.1) := by rw [hls, ← h2]; exact List.mem_map_of_mem (List.getElem_mem h1)
      obtain ⟨x, hx, rfl⟩ := List.mem_map.mp this
      exact .qvariant hm (T.unit hx)
  | struct q fs => exact h.elim
  | union q e vs => cases hu
  | string | array t | table q => simp [Gen.kindOf] at hk

theorem getDefault_typed {X : Cx} {Γ : Locals} {ty : Ir.Ty} (hu : ty.isUnion = false) (h : Good F ty) {d : Option Ast.DefaultValue} {kd : Gen.Kind}
    (hk : Gen.kindOf ty d = some kd) (h1 : find Γ c!"Some" = none) (h2 : find Γ c!"None" = none) {l : Str} {wrap : Option (List Str)} {o : Bool} {w : Ty}
    (hw : Full.typeToken ns ty l wrap o = some w) {r : Region} (hm : isPlain ty = true → Means F X.env w (lty ty r)) {e : Expr} (he : Full.getDefault w d = some e) :
    Typed F X Γ e (.option (lty ty r)) := by
  cases d with
  | none =>
    cases he
    exact .none h2
  | some d =>
    simp only [Full.getDefault, Option.map_eq_some_iff] at he
    obtain ⟨e', he', rfl⟩ := he
    refine .some h1 (default_typed hu h hk hw (hm ?_) he')
    cases ty <;> first | rfl | (cases hu; done) | simp [Gen.kindOf] at hk

end

end Butte.Src.Check
