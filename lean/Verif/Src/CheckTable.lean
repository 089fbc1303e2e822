import Verif.Src.CheckFields
import Verif.Src.OwnAll
/-
The code of tables keeps the type rules: builders.
-/
namespace Butte.Src.Check
open Ir (QIdent All₂)
open Rs (Program Hygienic modOf pathTokens fwdPath wipPath Scope)

/-- What the code of a table relies on, as to types. -/
structure TableCk (F : File) (m : List Str) (n : Str) (ns : Option QIdent) (fs : List Ir.Field) (args : List Field) (adds accs : List Fn)
    (consts : List ImplItem) : Prop extends TableTypes F m n ns fs where
  argsItem : F.item m (n ++ c!"Args") = some (Full.argsStruct n fs args)
  argsFields : All₂ (fun f (a : Field) => a.name = f.ident ∧ ∃ t, Full.argTy ns f.ty c!"a" = some t ∧
    a.ty = if f.required || f.ty.isScalar then t else Full.optionTy t) fs args
  addFns : fs.mapM (Full.addMethod n ns) = some adds
  accFns : fs.mapM (Full.accessor n ns) = some accs
  constIn : ∀ f ∈ fs, ∃ l, ImplItem.const true (Quote.offsetId f) (.path [c!"butte", c!"VOffsetT"] false []) l ∈ consts
  constOut : ∀ c ∈ consts, ∃ x, ∃ v : Fin 65536, c = .const true x (.path [c!"butte", c!"VOffsetT"] false []) (.int v.val c!"u16")
  createAt : (m, Full.tableCreate n consts fs) ∈ flatItems [] F.items
  accessAt : (m, Full.tableAccess n accs) ∈ flatItems [] F.items
  builderAt : (m, Full.builderImpl n adds fs) ∈ flatItems [] F.items
  good : ∀ f ∈ fs, Good F f.ty
  okTy : ∀ f ∈ fs, ∀ sc : Scope, sc.Ok → sc.module = m → OkTy F sc ns f.ty
  kinds : ∀ f ∈ fs, ∃ kd, Gen.kindOf f.ty f.default = some kd
  ids : (fs.map (·.ident)).Nodup
  notSelf : ∀ f ∈ fs, f.ident ≠ c!"self"

section
variable {F : File} {k : TyEnv} {m : List Str} {n : Str} {ns : Option QIdent} {fs : List Ir.Field} {args : List Field} {adds accs : List Fn}
  {consts : List ImplItem}

/-! ### Arguments -/

/-- The type of an argument. -/
def largF (f : Ir.Field) (r : Region) : LTy := if f.required || f.ty.isScalar then larg f.ty r else .option (larg f.ty r)

/-- The type of the arguments. -/
abbrev argsTy (m : List Str) (n : Str) (fs : List Ir.Field) (r : Region) : LTy :=
  .app (.item m (n ++ c!"Args")) (if Full.hasLife fs then [r] else []) []

theorem argTy_means' (A : Sees F k.sc) {l : Str} {r : Region} {ty : Ir.Ty} (hl : (ty.isScalar || ty.isUnion) = false → LifeMeans k (lifeOf l) r)
    (ho : OkTy F k.sc ns ty) {t : Ty} (h : Full.argTy ns ty l = some t) : Means F k t (larg ty r) := by
  by_cases hs : (ty.isScalar || ty.isUnion) = false
  · exact argTy_means A (hl hs) ho h
  · cases ty with
    | builtin b =>
      cases h
      exact word_means A _
    | union q e vs =>
      cases h
      exact wip_means A (butte_means A rfl .nil)
    | struct q _ =>
      simp only [Full.argTy, Ir.Ty.isUnion, Full.typeToken, Bool.false_eq_true, if_false, Option.bind_eq_bind, Option.bind_eq_some_iff, Option.pure_def, Option.some.injEq] at h
      obtain ⟨c, hc, rfl⟩ := h
      obtain rfl := pathTokens_eq hc
      exact .app ho.1 ho.2.1 ho.2.2 .nil
    | enum q _ _ =>
      simp only [Full.argTy, Ir.Ty.isUnion, Full.typeToken, Bool.false_eq_true, if_false, Option.bind_eq_bind, Option.bind_eq_some_iff, Option.pure_def, Option.some.injEq] at h
      obtain ⟨c, hc, rfl⟩ := h
      obtain rfl := pathTokens_eq hc
      exact .app ho.1 ho.2.1 ho.2.2 .nil
    | string | array t | table q => exact absurd rfl hs

theorem typeParams_args : typeParams (Full.argsGenerics fs) = [] := by
  unfold Full.argsGenerics
  split <;> rfl

theorem ownRegions_args : ownRegions (Full.argsGenerics fs) = if Full.hasLife fs then [.named c!"a"] else [] := by
  unfold Full.argsGenerics
  split <;> rfl

theorem ownParams_args : ownParams (Full.argsGenerics fs) = [] := by
  unfold Full.argsGenerics
  split <;> rfl

theorem hasLife_of {f : Ir.Field} (hf : f ∈ fs) (h : (f.ty.isScalar || f.ty.isUnion) = false) : Full.hasLife fs = true :=
  List.any_eq_true.mpr ⟨f, hf, by simp [h]⟩

namespace TableCk

theorem argField (T : TableCk F m n ns fs args adds accs consts) (r : Region) {f : Ir.Field} (hf : f ∈ fs) {t : Ty}
    (ht : Full.argTy ns f.ty c!"a" = some t) :
    Means F (declEnv m (Full.argsGenerics fs) (if Full.hasLife fs then [r] else []) []) (if f.required || f.ty.isScalar then t else Full.optionTy t) (largF f r) := by
  have A : Sees F (declEnv m (Full.argsGenerics fs) (if Full.hasLife fs then [r] else []) []).sc := by
    show Paths F.prog m (typeParams (Full.argsGenerics fs))
    rw [typeParams_args]
    exact T.paths (.inl rfl)
  have hm : Means F (declEnv m (Full.argsGenerics fs) (if Full.hasLife fs then [r] else []) []) t (larg f.ty r) := by
    refine argTy_means' A (fun h => ?_) (T.okTy f hf _ (.inl ?_) rfl) ht
    · refine life_means (by decide) (by decide) ?_
      simp only [declEnv, Full.argsGenerics, hasLife_of hf h, if_true]
      rfl
    · exact typeParams_args
  unfold largF
  by_cases h : (f.required || f.ty.isScalar) = true
  · simp only [h, if_true]
    exact hm
  · simp only [h, Bool.false_eq_true, if_false]
    exact option_means A hm

theorem argsFieldsOf (T : TableCk F m n ns fs args adds accs consts) (r : Region) :
    FieldsOf F (argsTy m n fs r) (fs.map fun f => (f.ident, largF f r)) := by
  refine .mk T.argsItem ?_
  have key : ∀ {gs : List Ir.Field} {as : List Field}, (∀ f ∈ gs, f ∈ fs) → All₂ (fun f (a : Field) => a.name = f.ident ∧ ∃ t, Full.argTy ns f.ty c!"a" = some t ∧
    a.ty = if f.required || f.ty.isScalar then t else Full.optionTy t) gs as →
      All₂ (fun (f : Field) (u : Str × LTy) => f.name = u.1 ∧
        Means F (declEnv m (Full.argsGenerics fs) (if Full.hasLife fs then [r] else []) []) f.ty u.2) as (gs.map fun f => (f.ident, largF f r)) := by
    intro gs as hs h
    induction h with
    | nil => exact .nil
    | @cons f a gs as hfa _ ih =>
      obtain ⟨h1, t, h2, h3⟩ := hfa
      refine .cons ⟨h1, ?_⟩ (ih fun f hf => hs f (by simp [hf]))
      rw [h3]
      exact T.argField r (hs f (by simp)) h2
  exact key (fun f hf => hf) T.argsFields

theorem kindArgs (T : TableCk F m n ns fs args adds accs consts) : F.kind (.item m (n ++ c!"Args")) = some (if Full.hasLife fs then 1 else 0, 0) := by
  simp only [File.kind, T.argsItem]
  unfold Full.argsStruct Full.argsGenerics
  split <;> rfl

theorem argsMeans (T : TableCk F m n ns fs args adds accs consts) (hm : k.sc.module = m) (hg : k.sc.Ok) {l : Str} {r : Region}
    (hl : Full.hasLife fs = true → LifeMeans k (lifeOf l) r) : Means F k (Full.argsTy n fs l) (argsTy m n fs r) := by
  refine .app ?_ (T.traits.args _ hg hm) ?_ ?_
  · have := ne_self_of rfl (T.traits.args ⟨m, [], none⟩ (.inl rfl) rfl)
    simpa using this
  · rw [T.kindArgs]
    split <;> rfl
  · split
    · rename_i h
      exact .life (hl h) .nil
    · exact .nil

theorem find_fields {g : Ir.Field → LTy} : ∀ {fs : List Ir.Field}, (fs.map (·.ident)).Nodup → ∀ f ∈ fs, find (fs.map fun f => (f.ident, g f)) f.ident = some (g f)
  | [], _, _, hf => by cases hf
  | a :: fs, h, f, hf => by
    rw [List.map_cons, List.nodup_cons] at h
    rcases List.mem_cons.mp hf with rfl | hf
    · simp [find]
    · have ne : a.ident ≠ f.ident := fun e => h.1 (e ▸ List.mem_map_of_mem hf)
      have := find_fields (g := g) h.2 f hf
      simp only [find, List.map_cons, List.find?_cons] at this ⊢
      rw [show ((a.ident == f.ident) = false) from by simpa using ne]
      exact this

theorem argsStruct_checks (T : TableCk F m n ns fs args adds accs consts) : ItemChecks F m (Full.argsStruct n fs args) := by
  intro a ha
  obtain ⟨f, hf, h1, t, h2, h3⟩ := Ir.all₂_right T.argsFields ha
  refine ⟨largF f (.named c!"a"), ?_⟩
  rw [h3, ownRegions_args, ownParams_args]
  exact T.argField (.named c!"a") hf h2

/-! ### Slots -/

theorem slot_means (A : Sees F k.sc) : Means F k (.path [c!"butte", c!"VOffsetT"] false []) (.prim .u16) := .slot (A.butte _ _)

theorem slot (T : TableCk F m n ns fs args adds accs consts) {f : Ir.Field} (hf : f ∈ fs) :
    InherentConst F (.item m n) (Quote.offsetId f) (.prim .u16) := by
  obtain ⟨l, hl⟩ := T.constIn f hf
  refine .mk (rs := [.static]) (ts := []) T.createAt (List.mem_append_left _ hl)
    (T.ofBytes (T.paths (.inl rfl)) rfl (.inl rfl) (life_means (by decide) (by decide) rfl)) (slot_means (T.paths (.inl rfl)))

theorem slotTyped (T : TableCk F m n ns fs args adds accs consts) {X : Cx} {Γ : Locals} (hm : X.env.sc.module = m) (hg : X.env.sc.Ok) {f : Ir.Field}
    (hf : f ∈ fs) : Typed F X Γ (Full.slotExpr n f) (.prim .u16) :=
  .const (p := [n]) (by simp) (T.traits.own _ hg hm) (T.slot hf)

end TableCk

end

end Butte.Src.Check
