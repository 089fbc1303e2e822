import Verif.Rs.TableAt
/-
The values of the emitted program that stand for the arguments and results of the model in `Gen`.
-/
namespace Butte.Rs
open Ir (QIdent)
open Gen (GField Kind Args kindOf)

/-- Variant number `i` of an enum. -/
def encEnum (q : QIdent) (vs : List Ir.EnumVariant) (i : Nat) : Option Value :=
  vs[i]?.map fun v => .variant (modOf q) (QIdent.simple q) v.ident

/-- An offset that may be missing. -/
def encOffset : Option (Fin (2 ^ 32)) → Value
  | none => .none
  | some o => .some (.offset o.val)

/-- An argument for a field of type `ty`: a number, a variant, an offset. -/
def encArg : Ir.Ty → (k : Kind) → (req : Bool) → k.Arg req → Option Value
  | _, .scalar t _, _, a => some (.scalar t a)
  | .enum q vs _, .enum _ _ _, _, a => encEnum q vs a.val
  | _, .ref _, true, a => some (.offset a.val)
  | _, .union _, true, a => some (.offset a.val)
  | _, .ref _, false, a => some (encOffset a)
  | _, .union _, false, a => some (encOffset a)
  | _, .enum _ _ _, _, _ => none

/-- The fields of the argument record. -/
def encFields : List Ir.Field → (gs : List GField) → Args gs → Option (List (Str × Value))
  | [], [], _ => some []
  | f :: fs, g :: gs, (a, as) => do
    let v ← encArg f.ty g.kind g.required a
    let vs ← encFields fs gs as
    return (f.ident, v) :: vs
  | _, _, _ => none

/-- The argument record. -/
def encArgs (t : Ir.Table) (gs : List GField) (args : Args gs) : Option Value :=
  (encFields t.fields gs args).map fun fs => .struct (tMod t) (tName t ++ c!"Args") fs

/-- A value that is found by following, as type `F`. -/
def encInner (F : FollowTy) (f : FTy) (x : f.Inner) : Option Value :=
  if h : F.fty = f then F.value (h ▸ x) else none

/-- What the accessor of a field of type `ty` hands out. -/
def encResult : Ir.Ty → (k : Kind) → k.Inner → Option Value
  | _, .scalar t _, x => some (.scalar t x)
  | .enum q vs _, .enum _ _ _, x => encEnum q vs x
  | ty, .ref f, x => do
    let F ← follows ty
    encInner F (.fwdU f) x
  | .union q _ vs, .union _, ⟨i, x⟩ => do
    let v ← vs[i.val]?
    let F ← follows v.ty
    let y ← encInner F _ x
    return .union (modOf q) (QIdent.simple q) v.ident y
  | _, _, _ => none

/-- A required field is handed out as it is, others as an `Option`. -/
def encOption {α : Type} (enc : α → Option Value) (req : Bool) : Option α → Option Value
  | some x => if req then enc x else (enc x).map .some
  | none => if req then none else some .none

/-- The table that is read. -/
def tableValue (t : Ir.Table) (tb : Butte.Table) : Value := .struct (tMod t) (tName t) [(c!"table", .table tb)]

/-! ### Types that are pushed -/

/-- The `Push` type of a type of the schema. -/
def pushes : Ir.Ty → Option PushTy
  | .builtin b => some (.scalar (Gen.builtinSTy b))
  | .string | .array _ | .table _ | .union .. => some .offset
  | .struct .. => none
  | .enum q vs b => (Gen.enumValues (Gen.enumBaseSTy b) vs).map fun xs =>
      .enum (modOf q) (QIdent.simple q) (Gen.enumBaseSTy b) ((vs.map (·.ident)).zip xs)

theorem pushTy_token {P : Program} {sc : Scope} {ns : Option QIdent} (hn : P.names.Nodup) (hh : Hygienic P) (hsc : sc.Ok)
    {ty : Ir.Ty} {w : Ty} {p : PushTy} (ht : HasTy P ty) (hq : ∀ q ∈ Gen.tyPaths ty, Leads P sc ns q)
    (hw : argTy ns ty = some w) (hp : pushes ty = some p) : pushTy P sc w = some p := by
  have hwip : ∀ a, pushTy P sc (.app wipPath a) = some .offset := by
    intro a
    rw [pushTy, wipPath, resolve_butte hh hsc, if_pos rfl]
  cases ty with
  | builtin b =>
    simp only [argTy, Ir.Ty.isUnion, typeToken, Bool.false_eq_true, if_false, Option.some.injEq] at hw
    simp only [pushes, Option.some.injEq] at hp
    subst hw hp
    rw [pushTy, builtinName, resolve_prim hh hsc]
  | string =>
    simp only [argTy, Ir.Ty.isUnion, typeToken, Bool.false_eq_true, if_false, Option.some.injEq, wrapped, if_true] at hw
    simp only [pushes, Option.some.injEq] at hp
    subst hw hp
    exact hwip _
  | array t =>
    simp only [argTy, Ir.Ty.isUnion, typeToken, Bool.false_eq_true, if_false, Option.some.injEq, wrapped, if_true,
      Option.bind_eq_bind, Option.bind_eq_some_iff, Option.pure_def] at hw
    simp only [pushes, Option.some.injEq] at hp
    obtain ⟨c, -, rfl⟩ := hw
    subst hp
    exact hwip _
  | table q =>
    simp only [argTy, Ir.Ty.isUnion, typeToken, Bool.false_eq_true, if_false, Option.some.injEq, wrapped, if_true,
      Option.bind_eq_bind, Option.bind_eq_some_iff, Option.pure_def] at hw
    simp only [pushes, Option.some.injEq] at hp
    obtain ⟨c, -, rfl⟩ := hw
    subst hp
    exact hwip _
  | struct q fs => exact ht.elim
  | union q e vs =>
    simp only [argTy, Ir.Ty.isUnion, if_true, Option.some.injEq] at hw
    simp only [pushes, Option.some.injEq] at hp
    subst hw hp
    exact hwip _
  | enum q vs b =>
    simp only [argTy, Ir.Ty.isUnion, typeToken, Bool.false_eq_true, if_false, Option.bind_eq_bind, Option.bind_eq_some_iff,
      Option.pure_def, Option.some.injEq, pathTokens] at hw
    obtain ⟨c, hc, rfl⟩ := hw
    split at hc
    · cases hc
    simp only [Option.some.injEq] at hc
    subst hc
    simp only [pushes, Option.map_eq_some_iff] at hp
    obtain ⟨xs, hx, rfl⟩ := hp
    obtain ⟨vl, hv, hpl⟩ := ht
    have hl : Leads P sc ns q := hq q (by simp [Gen.tyPaths])
    unfold Leads at hl
    have hmem : (⟨modOf q, .type, QIdent.simple q⟩ : Gen.Item) ∈ P.names :=
      hpl.mem_names ⟨.enum (QIdent.simple q) (baseName b) vl, by simp [enumItems], rfl⟩
    have hi : implements P (modOf q) (QIdent.simple q) c!"Push" = true := by
      refine implements_of hh (.inl rfl) (cs := []) (fs := [enumPushFn (baseName b)]) ?_
      rw [enum_impls hpl hn (Plain.of_reserved (hh.plain hmem)).prim ⟨_, rfl⟩]
      simp
    simp only [pushTy, hl, enumOf_placed hn hv hpl hx, hi, if_true]

end Butte.Rs
