import Verif.Rs.TypedConverse
import Verif.Gen.Items
import Verif.Gen.WorkableOk
import Mathlib.Data.List.Nodup
import Mathlib.Data.List.Pairwise
/-
What follows for a table when the program emitted for it is well-typed.
-/
namespace Butte.Rs
open Ir (QIdent Node Ident itemsOf Translates)
open Gen (compileTable formatIdent formatIdent_eq GField kindOf)

/-! ### What a typed expression is made of -/

section
variable {P : Program} {k : TCtx} {ret : RTy} {Γ : Types}

theorem inv_get {n : Str} {f : Ir.Field} {w : Ty} {d : Expr} {T : RTy} (h : HasType P k ret Γ (getExpr n f w d) T) :
    ∃ F, followTy P k.sc w = some F ∧ HasType P k ret Γ d (.option F.inner) := by
  unfold getExpr at h
  generalize hg : c!"get" = nm at h
  cases h with
  | methodAt h1 h2 h3 h4 =>
    cases h2 with
    | get hF => exact ⟨_, hF, h4 (d, _) (by simp)⟩
    | pushSlotAlways _ _ => exact absurd hg (by decide)
    | pushSlot _ _ => exact absurd hg (by decide)

theorem inv_try {e : Expr} {T : RTy} (h : HasType P k ret Γ (.try e) T) : ∃ u, HasType P k ret Γ e (.result T u) := by
  cases h with
  | «try» h _ => exact ⟨_, h⟩

theorem inv_method {e : Expr} {f : Str} {es : List Expr} {T : RTy} (h : HasType P k ret Γ (.method e f es) T) :
    ∃ s, HasType P k ret Γ e s := by
  cases h with
  | method h _ _ _ _ _ => exact ⟨_, h⟩
  | runtimeMethod h _ _ _ => exact ⟨_, h⟩

theorem inv_ctor {w : Ty} {c : Str} {e : Expr} {T : RTy} (h : HasType P k ret Γ (.ctor w c e) T) :
    ∃ s, HasType P k ret Γ e s := by
  cases h with
  | fieldMissing _ h => exact ⟨_, h⟩
  | ctor _ _ h => exact ⟨_, h⟩

theorem inv_plain {n : Str} {f : Ir.Field} {snake : Str} {w : Ty} {d : Expr} {T : RTy}
    (h : HasType P k ret Γ (plainBody n f snake w d) T) :
    ∃ F, followTy P k.sc w = some F ∧ HasType P k ret Γ d (.option F.inner) := by
  unfold plainBody at h
  split at h
  · obtain ⟨s, h⟩ := inv_method h
    obtain ⟨u, h⟩ := inv_try h
    exact inv_get h
  · exact inv_get h

theorem inv_some {e : Expr} {t : RTy} (h : HasType P k ret Γ (.some e) (.option t)) : HasType P k ret Γ e t := by
  cases h with
  | some h => exact h

theorem inv_lit {l : Lit} {t : RTy} (h : HasType P k ret Γ (.lit l) t) : litTy l = some t := by
  cases h with
  | lit h => exact h

/-- `T::c`, unless `T` is an item, is `butte::Error::UnknownEnumVariant`. -/
theorem inv_assoc {w : Ty} {c : Str} {t : RTy} (h : HasType P k ret Γ (.assoc w c) t) :
    (∃ m n, defOf P k.sc w = some (.item m n) ∧ ((enumOf P m n).isSome → c ∈ variantsOf P (.enum m n))) ∨
      defOf P k.sc w = some (.butte c!"Error") := by
  cases h with
  | variant h1 h2 h3 => exact .inl ⟨_, _, h1, fun _ => h3⟩
  | const h1 h2 _ => exact .inl ⟨_, _, h1, fun h => by rw [h2] at h; cases h⟩
  | unknownVariant h => exact .inr h

end

/-- The literal of a scalar has a value if it has a type. -/
theorem literal_of {s : Ast.Scalar} {t : STy} {l : Lit} (hl : fmtLit s (.path [primName t]) = some l)
    (ht : litTy l = some (.prim t)) : ∃ v, Gen.literal t s = some v := by
  cases s with
  | integer i =>
    simp only [fmtLit, suffix, Option.bind_eq_bind, Option.bind_some, Option.pure_def, Option.some.injEq] at hl
    subst hl
    cases hv : Gen.literal t (.integer i) with
    | some v => exact ⟨v, rfl⟩
    | none => simp [litTy, litValue, primOf_primName, litVal, hv] at ht
  | float x =>
    simp only [fmtLit, suffix, Option.bind_eq_bind, Option.bind_some] at hl
    split at hl
    · cases hl
      cases hv : Gen.literal t (.float x) with
      | some v => exact ⟨v, rfl⟩
      | none => simp [litTy, litValue, primOf_primName, litVal, hv] at ht
    · cases hl
  | boolean b =>
    simp only [fmtLit, Option.some.injEq] at hl
    subst hl
    simp only [litTy, litValue, Option.some.injEq, RTy.prim.injEq] at ht
    subst ht
    exact ⟨_, rfl⟩

/-- A literal of a scalar is no string. -/
theorem fmtLit_prim {s : Ast.Scalar} {w : Ty} {l : Lit} (hl : fmtLit s w = some l) {T : RTy} (ht : litTy l = some T) :
    ∃ t, T = .prim t := by
  unfold litTy at ht
  split at ht
  · exact ⟨_, by simpa using ht.symm⟩
  · rename_i v hv
    exfalso
    cases l with
    | str s' =>
      cases s with
      | integer i =>
        simp only [fmtLit, Option.bind_eq_bind, Option.bind_eq_some_iff, Option.pure_def, Option.some.injEq, reduceCtorEq,
          and_false, exists_false] at hl
      | float x =>
        simp only [fmtLit, Option.bind_eq_bind, Option.bind_eq_some_iff] at hl
        obtain ⟨_, _, hl⟩ := hl
        split at hl <;> cases hl
      | boolean b => simp [fmtLit] at hl
    | _ =>
      simp only [litValue, Option.bind_eq_bind, Option.bind_eq_some_iff, Option.pure_def, Option.some.injEq, reduceCtorEq,
        and_false, exists_false] at hv
  · cases ht

section
variable {gm : Mode} {E : List Ast.Element} {out : List Node} {P : Program}

/-- The values of all enums can be computed. -/
theorem Setting.values_of (S : Setting gm E out P) (W : WellTyped P) {q : QIdent} {vs : List Ir.EnumVariant} {b : Ir.EnumBase}
    (hd : DefinedTy out (.enum q vs b)) : ∃ xs, Gen.enumValues (Gen.enumBaseSTy b) vs = some xs := by
  obtain ⟨⟨p, n⟩, hx, hd⟩ := hd
  cases n <;> simp only [Node.defines, Option.some.injEq, Prod.mk.injEq, reduceCtorEq, and_false, Ir.CustomType.enum.injEq] at hd
  obtain ⟨rfl, rfl, rfl⟩ := hd
  exact (S.enum_converse W hx).1

theorem followTy_union (S : Setting gm E out P) {sc : Scope} {ns : Option QIdent} {q e : QIdent} {vs : List Ir.UnionVariant}
    (ht : HasTy P (.union q e vs)) (hl : Leads P sc ns q) : followTy P sc (.path (QIdent.relative q ns)) = none := by
  obtain ⟨es, us, -, -, hp⟩ := ht
  unfold Leads at hl
  have : enumOf P (modOf q) (QIdent.simple q) = none := by rw [enumOf, union_item hp S.nodup]
  simp only [followTy, hl, this]

/-- Whatever is written as the type of a field, it can be followed just when it should be. -/
theorem Setting.follow_or (S : Setting gm E out P) (W : WellTyped P) {sc : Scope} {ns : Option QIdent} (hsc : sc.Ok) :
    ∀ {ty : Ir.Ty} {w : Ty}, DefinedTy out ty → (∀ q ∈ Gen.tyPaths ty, Leads P sc ns q) →
      typeToken ns ty (some fwdPath) true = some w → (∃ F, follows ty = some F) ∨ followTy P sc w = none
  | .builtin b, _, _, _, _ => .inl ⟨_, rfl⟩
  | .string, _, _, _, _ => .inl ⟨_, rfl⟩
  | .table q, _, _, _, _ => .inl ⟨_, rfl⟩
  | .struct q fs, _, hd, _, _ => (S.hasTy hd).elim
  | .enum q vs b, _, hd, _, _ => by
    obtain ⟨xs, hx⟩ := S.values_of W hd
    exact .inl ⟨_, by rw [follows, hx]; rfl⟩
  | .union q e vs, w, hd, hq, hw => by
    refine .inr ?_
    simp only [typeToken, Option.bind_eq_bind, Option.bind_eq_some_iff, Option.pure_def, Option.some.injEq, wrapped,
      if_true] at hw
    obtain ⟨p, hp, rfl⟩ := hw
    rw [pathTokens_eq hp]
    have := followTy_union S (S.hasTy hd) (hq q (by simp [Gen.tyPaths]))
    rw [followTy]
    simp only [fwdPath, resolve_butte S.hygienic hsc, if_true, this, Option.map_none]
  | .array t, w, hd, hq, hw => by
    simp only [typeToken, Option.bind_eq_bind, Option.bind_eq_some_iff, Option.pure_def, Option.some.injEq, wrapped,
      if_true] at hw
    obtain ⟨c, hc, rfl⟩ := hw
    rcases S.follow_or W hsc (ty := t) hd hq hc with ⟨F, hF⟩ | h
    · exact .inl ⟨_, by rw [follows, hF]; rfl⟩
    · refine .inr ?_
      simp only [fwdPath, vectorPath, followTy, resolve_butte S.hygienic hsc, if_true, h, Option.map_none]
      rw [if_neg (by decide)]
      rfl

theorem Setting.follow_inv (S : Setting gm E out P) (W : WellTyped P) {sc : Scope} {ns : Option QIdent} (hsc : sc.Ok)
    {ty : Ir.Ty} {w : Ty} {F : FollowTy} (hd : DefinedTy out ty) (hq : ∀ q ∈ Gen.tyPaths ty, Leads P sc ns q)
    (hw : typeToken ns ty (some fwdPath) true = some w) (hF : followTy P sc w = some F) : follows ty = some F := by
  rcases S.follow_or W hsc hd hq hw with ⟨F', hF'⟩ | h
  · rw [followTy_token S.nodup S.hygienic hsc (S.hasTy hd) hq hw hF'] at hF
    cases hF
    exact hF'
  · rw [hF] at h
    cases h

/-- What a field is, when its accessor is well-typed and it is no union. -/
theorem Setting.kind_plain (S : Setting gm E out P) (W : WellTyped P) {k : TCtx} {ret : RTy} {Γ : Types} {ns : Option QIdent}
    (hsc : k.sc.Ok) {ty : Ir.Ty} {d : Option Ast.DefaultValue} (hu : ty.isUnion = false) {w : Ty} {F : FollowTy} {e : Expr}
    (hd : DefinedTy out ty) (hq : ∀ q ∈ Gen.tyPaths ty, Leads P k.sc ns q)
    (hw : typeToken ns ty (some fwdPath) true = some w) (hF : followTy P k.sc w = some F) (he : getDefault w d = some e)
    (ht : HasType P k ret Γ e (.option F.inner)) : ∃ kd, kindOf ty d = some kd := by
  have hf := S.follow_inv W hsc hd hq hw hF
  rw [(follows_ty hf).2] at ht
  cases d with
  | none =>
    cases ty with
    | builtin b => exact ⟨_, rfl⟩
    | string => exact ⟨_, rfl⟩
    | table q => exact ⟨_, rfl⟩
    | struct q fs => exact (S.hasTy hd).elim
    | union q e vs => cases hu
    | enum q vs b =>
      obtain ⟨xs, hx⟩ := S.values_of W hd
      exact ⟨_, by rw [kindOf, hx]; rfl⟩
    | array t =>
      simp only [follows, Option.map_eq_some_iff] at hf
      obtain ⟨F', hF', -⟩ := hf
      have := follows_fty t
      rw [hF'] at this
      exact ⟨_, by rw [kindOf, ← this]; rfl⟩
  | some d =>
    simp only [getDefault, Option.map_eq_some_iff] at he
    obtain ⟨e', he', rfl⟩ := he
    have ht := inv_some ht
    cases d with
    | scalar s =>
      simp only [defaultValue, Option.bind_eq_bind, Option.bind_eq_some_iff, Option.pure_def, Option.some.injEq] at he'
      obtain ⟨l, hl, rfl⟩ := he'
      have ht := inv_lit ht
      obtain ⟨t, hp⟩ := fmtLit_prim hl ht
      cases ty <;> simp only [irTy, reduceCtorEq] at hp
      rename_i b
      simp only [typeToken, Option.some.injEq] at hw
      subst hw
      obtain ⟨v, hv⟩ := literal_of hl ht
      exact ⟨_, by rw [kindOf, hv]; rfl⟩
    | ident i =>
      simp only [defaultValue, Option.bind_eq_bind, Option.bind_eq_some_iff, Option.pure_def, Option.some.injEq] at he'
      obtain ⟨c, hc, rfl⟩ := he'
      have := formatIdent_eq hc
      subst this
      have hi := inv_assoc ht
      cases ty with
      | builtin b =>
        simp only [typeToken, Option.some.injEq] at hw
        subst hw
        simp only [defOf, builtinName, resolve_prim S.hygienic hsc] at hi
        rcases hi with ⟨m, n, h, -⟩ | h <;> cases h
      | string =>
        simp only [typeToken, Option.some.injEq, wrapped, if_true] at hw
        subst hw
        simp only [defOf, fwdPath, resolve_butte S.hygienic hsc] at hi
        rcases hi with ⟨m, n, h, -⟩ | h
        · cases h
        · exact absurd h (by decide)
      | table q =>
        simp only [typeToken, Option.bind_eq_bind, Option.bind_eq_some_iff, Option.pure_def, Option.some.injEq, wrapped,
          if_true] at hw
        obtain ⟨p, -, rfl⟩ := hw
        simp only [defOf, fwdPath, resolve_butte S.hygienic hsc] at hi
        rcases hi with ⟨m, n, h, -⟩ | h
        · cases h
        · exact absurd h (by decide)
      | array t =>
        simp only [typeToken, Option.bind_eq_bind, Option.bind_eq_some_iff, Option.pure_def, Option.some.injEq, wrapped,
          if_true] at hw
        obtain ⟨p, -, rfl⟩ := hw
        simp only [defOf, fwdPath, resolve_butte S.hygienic hsc] at hi
        rcases hi with ⟨m, n, h, -⟩ | h
        · cases h
        · exact absurd h (by decide)
      | struct q fs => exact (S.hasTy hd).elim
      | union q e vs => cases hu
      | enum q vs b =>
        obtain ⟨xs, hx⟩ := S.values_of W hd
        have hl : Leads P k.sc ns q := hq q (by simp [Gen.tyPaths])
        unfold Leads at hl
        simp only [typeToken, Option.bind_eq_bind, Option.bind_eq_some_iff, Option.pure_def, Option.some.injEq] at hw
        obtain ⟨p, hp, rfl⟩ := hw
        rw [pathTokens_eq hp, defOf, hl] at hi
        rcases hi with ⟨m, n, h, hm⟩ | h
        · cases h
          obtain ⟨vl, hv', hpl⟩ := S.hasTy hd
          have := hm (by rw [enumOf_placed S.nodup hv' hpl hx]; rfl)
          rw [variantsOf_enum S.nodup (S.hasTy hd)] at this
          obtain ⟨v, hv, hvi⟩ := List.mem_map.mp this
          obtain ⟨j, hj⟩ : ∃ j, vs.findIdx? (fun v => v.ident == c) = some j := by
            rw [← Option.isSome_iff_exists, List.findIdx?_isSome, List.any_eq_true]
            exact ⟨v, hv, by simp [hvi]⟩
          have hlt := (List.findIdx?_eq_some_iff_getElem.mp hj).1
          rw [← (enumValues_some hx).2.1] at hlt
          refine ⟨.enum (Gen.enumBaseSTy b) xs (some ⟨j, hlt⟩), ?_⟩
          simp only [kindOf, hx, Gen.enumDefault, hj, Option.bind_eq_bind, Option.bind_some, hlt, dif_pos, Option.pure_def]
        · cases h

/-! ### Names -/

/-- Two enums of the same module and name are the same. -/
theorem Setting.enum_unique (S : Setting gm E out P) {p p' : List Ident} {e e' : Ir.Enum} (hx : (p, Node.enum e) ∈ itemsOf out)
    (hx' : (p', Node.enum e') ∈ itemsOf out) (hm : modOf e.ident = modOf e'.ident)
    (hs : QIdent.simple e.ident = QIdent.simple e'.ident) : e = e' := by
  have hperm := Gen.emitsAll_flat [] out P.names (emitNodes_names gm [] out P S.emitted)
  have hnd := hperm.nodup_iff.mp S.nodup
  rw [Gen.flat, List.nodup_append'] at hnd
  have hpw := (List.nodup_flatMap.mp hnd.1).2
  by_contra hne
  have : Std.Symm (Function.onFun List.Disjoint fun x : List Ident × Node => Gen.own (x.1.map Heck.snake) x.2) :=
    ⟨fun a b h c hb ha => h ha hb⟩
  have hd := hpw.forall hx hx' (fun h => hne (by cases h; rfl))
  have h1 : p.map Heck.snake = modOf e.ident := S.path hx
  have h2 : p'.map Heck.snake = modOf e'.ident := S.path hx'
  refine hd (a := ⟨modOf e.ident, .type, QIdent.simple e.ident⟩) ?_ ?_
  · show _ ∈ Gen.own (p.map Heck.snake) (.enum e)
    rw [h1]
    exact List.mem_cons_self
  · show _ ∈ Gen.own (p'.map Heck.snake) (.enum e')
    rw [h2, ← hm, hs]
    exact List.mem_cons_self

theorem rustName_of {s : Str} (h : legalName s = true) (hp : s ∉ unbindable) : Gen.rustName s = true := by
  unfold legalName at h
  unfold Gen.rustName
  split at h
  · cases h
  · rw [Bool.and_eq_true]
    exact ⟨h, decide_eq_true hp⟩

theorem snake_bindable (s : Str) : Heck.snake s ∉ unbindable := by
  intro h
  have hl : ∀ c ∈ Heck.snake s, c.isUpper = false := fun c hc => snake_lower hc
  generalize Heck.snake s = n at h hl
  simp only [unbindable, List.mem_cons, List.not_mem_nil, or_false] at h
  rcases h with rfl | rfl | rfl | rfl <;> revert hl <;> decide

/-- What a table's text consists of, and how it is typed. -/
structure Typed (gm : Mode) (P : Program) (t : Ir.Table) : Prop where
  names : Gen.namesOk t.fields = true
  slots : ∀ j < t.fields.length, ∃ s, Gen.slotOf gm j = some s
  accessors : ∀ f ∈ t.fields, ∃ fn, accessor (tName t) (tNs t) f = some fn ∧ FnOk P (accCtx t) fn
  methods : ∀ x g, fnOf P (tMod t) (tName t) x = some g → (g.2.params.head?.map (·.1)) = some c!"self" →
    g.1 = [c!"B"] ∧ ∃ f ∈ t.fields, accessor (tName t) (tNs t) f = some g.2 ∧ Heck.snake f.ident = x
  item : itemOf P (tMod t) (tName t) = some (tableStruct (tName t))

theorem fnOf_mem {m : List Str} {n f : Str} {g : List Str × Fn} (h : fnOf P m n f = some g) :
    ∃ i ∈ implsOf P m n, i.1 = g.1 ∧ g.2 ∈ i.2.2.2 ∧ g.2.name = f := by
  have key : ∀ tr : Bool, g ∈ ((implsOf P m n).flatMap fun i =>
      if i.2.1.isSome = tr then (i.2.2.2.filter fun g => g.name == f).map fun g => (i.1, g) else []) →
      ∃ i ∈ implsOf P m n, i.1 = g.1 ∧ g.2 ∈ i.2.2.2 ∧ g.2.name = f := by
    intro tr hg
    obtain ⟨i, hi, hg⟩ := List.mem_flatMap.mp hg
    split at hg
    · obtain ⟨g', hg', rfl⟩ := List.mem_map.mp hg
      rw [List.mem_filter] at hg'
      exact ⟨i, hi, rfl, hg'.1, by simpa using hg'.2⟩
    · cases hg
  unfold fnOf at h
  simp only at h
  split at h
  · rename_i g' hg'
    cases h
    exact key false (by rw [hg']; simp)
  · split at h
    · rename_i g' hg'
      cases h
      exact key true (by rw [hg']; simp)
    · cases h
  · cases h

theorem Setting.typed (S : Setting gm E out P) (W : WellTyped P) {p : List Ident} {t : Ir.Table}
    (hx : (p, Node.table t) ∈ itemsOf out) : Typed gm P t := by
  obtain ⟨args, dflt, adds, consts, accs, ds, h1, h2, h3, h4, h5, hp⟩ := S.table hx
  have hd : dflt = [] ∨ dflt = [argsDefault (QIdent.simple t.ident) ds] := by tauto
  have own : (⟨tMod t, .type, tName t⟩ : Gen.Item) ∈ P.names :=
    hp.mem_names ⟨tableStruct (tName t), by simp [tableItems], rfl⟩
  have pl : Plain (tName t) := .of_reserved (S.hygienic.plain own)
  have hnames : accs.map (·.name) = t.fields.map fun f => Heck.snake f.ident :=
    map_of_forall₂ (fun f g h => accessor_name h) (mapM_forall₂ h5)
  have hargs : args.map (·.1) = t.fields.map (·.ident) := map_of_forall₂ (fun a b => argField_name (f := a) (a := b)) (mapM_forall₂ h1)
  have item := table_item hp S.nodup hd
  have implB : tyOf P ⟨⟨tMod t, [c!"B"], none⟩, none, []⟩ (.app [tName t] (.path [c!"B"])) =
      some (.structApp (tMod t) (tName t) (.param c!"B")) := by
    have : resolve P ⟨tMod t, [c!"B"], none⟩ [tName t] = some (.item (tMod t) (tName t)) :=
      resolve_own S.hygienic (sc := ⟨tMod t, [c!"B"], none⟩) (.inr rfl) own
    simp only [tyOf, param_ty (k := ⟨⟨tMod t, [c!"B"], none⟩, none, []⟩) rfl, Option.bind_eq_bind, Option.bind_some, appTy,
      this, item, tableStruct]
  -- names
  obtain ⟨-, -, hI, -⟩ := W.placed hp (x := tableStruct (tName t)) (by simp [tableItems])
  obtain ⟨hI, -⟩ := hI
  rw [table_impls hp S.nodup hd pl] at hI
  simp only [List.flatMap_cons, List.flatMap_nil, reduceCtorEq, if_false, if_true, List.nil_append, List.append_nil,
    consts_names h4, List.map_cons, List.map_nil, List.map_append, hnames, createFn, getRootFn] at hI
  rw [List.append_assoc, List.nodup_append'] at hI
  obtain ⟨hA, hnd, -⟩ := W.placed hp (x := .struct (tName t ++ c!"Args") [] args) (by simp [tableItems])
  obtain ⟨hC, sA, hsA, -, hacc⟩ := W.placed hp (x := tableAccess (tName t) accs) (by simp [tableItems])
  rw [implB] at hsA
  cases hsA
  obtain ⟨hB, sB, hsB, -, hadd⟩ := W.placed hp (x := builderImpl (tName t) adds t.fields) (by simp [tableItems])
  have hbind : ∀ f ∈ t.fields, f.ident ∉ unbindable := by
    intro f hf
    obtain ⟨g, hg, hfg⟩ := forall₂_left (mapM_forall₂ h3) f hf
    obtain ⟨ts, r, -, -, hub, -⟩ := hadd g (List.mem_append_left _ hg)
    simp only [addMethod, Option.bind_eq_bind, Option.bind_eq_some_iff, Option.pure_def, Option.some.injEq] at hfg
    obtain ⟨w, _, b, _, rfl⟩ := hfg
    exact hub (f.ident, w) (by simp)
  refine ⟨?_, ?_, ?_, ?_, item⟩
  · simp only [Gen.namesOk, Bool.and_eq_true, decide_eq_true_eq, List.all_eq_true, List.mem_map, forall_exists_index, and_imp,
      forall_apply_eq_imp_iff₂]
    refine ⟨⟨⟨⟨?_, ?_⟩, ?_⟩, ?_⟩, ?_⟩
    · rw [← hargs]; exact hnd
    · exact List.Perm.nodup (List.perm_middle).symm hI.2.1
    · intro f hf
      refine rustName_of (hA _ ?_) (hbind f hf)
      simp only [Item.idents, hargs, List.mem_append]
      exact .inr (List.mem_map_of_mem hf)
    · intro f hf
      refine rustName_of (hC _ ?_) (snake_bindable _)
      have : Heck.snake f.ident ∈ accs.map (·.name) := by rw [hnames]; exact List.mem_map.mpr ⟨f, hf, rfl⟩
      obtain ⟨g, hg, hgn⟩ := List.mem_map.mp this
      simp only [tableAccess, Item.idents, List.mem_append, List.mem_flatMap]
      exact .inr ⟨g, .inl hg, by rw [← hgn]; simp [Fn.idents]⟩
    · have h := hI.1
      have e : t.fields.map offsetId = (t.fields.map (fun f => Heck.shouty f.ident)).map (c!"VT_" ++ ·) := by
        simp [offsetId]
      rw [e] at h
      exact h.of_map _
  · intro j hj
    obtain ⟨b, hb, hs⟩ := forall₂_left (mapM_forall₂ h4) (t.fields[j], j) (by
      rw [List.mem_iff_getElem?]
      exact ⟨j, by simp [hj]⟩)
    simp only [slotConst, Option.bind_eq_bind, Option.bind_eq_some_iff] at hs
    obtain ⟨s, hs, -⟩ := hs
    exact ⟨s, hs⟩
  · intro f hf
    obtain ⟨g, hg, hfg⟩ := forall₂_left (mapM_forall₂ h5) f hf
    refine ⟨g, hfg, ?_⟩
    have := hacc g (List.mem_append_left _ hg)
    rwa [show selfDef P ⟨tMod t, [c!"B"], none⟩ (.app [tName t] (.path [c!"B"])) = _ from
      resolve_own S.hygienic (sc := ⟨tMod t, [c!"B"], none⟩) (.inr rfl) own] at this
  · intro x g hg hself
    obtain ⟨i, hi, h6, h7, h8⟩ := fnOf_mem hg
    rw [table_impls hp S.nodup hd pl] at hi
    simp only [List.mem_cons, List.not_mem_nil, or_false] at hi
    rcases hi with rfl | rfl | rfl | rfl | rfl
    · simp only [List.mem_singleton] at h7
      rw [h7] at hself
      exact absurd hself (by decide)
    · simp only [List.mem_singleton] at h7
      rw [h7] at hself
      simp [createFn] at hself
    · simp only [List.mem_append, List.mem_singleton] at h7
      rcases h7 with h7 | h7
      · obtain ⟨f, hf, hfa⟩ := forall₂_right (mapM_forall₂ h5) g.2 h7
        exact ⟨h6.symm, f, hf, hfa, by rw [← accessor_name hfa, h8]⟩
      · rw [h7] at hself
        exact absurd hself (by decide)
    · simp only [List.mem_singleton] at h7
      rw [h7] at hself
      exact absurd hself (by decide)
    · simp only [List.mem_singleton] at h7
      rw [h7] at hself
      exact absurd hself (by decide)

/-! ### Unions -/

theorem subst_param (p : Str) : ∀ t : RTy, RTy.subst p (.param p) t = t
  | .param n => by
    rw [RTy.subst]
    split
    · rename_i h; rw [h]
    · rfl
  | .option t => by rw [RTy.subst, subst_param p t]
  | .result t e => by rw [RTy.subst, subst_param p t, subst_param p e]
  | .butteApp n t => by rw [RTy.subst, subst_param p t]
  | .structApp m n t => by rw [RTy.subst, subst_param p t]
  | .unit | .prim _ | .usize | .str | .bytes | .butte _ | .enum .. | .union .. | .struct .. => rfl

theorem Setting.field_leads (S : Setting gm E out P) {p : List Ident} {t : Ir.Table} (hx : (p, Node.table t) ∈ itemsOf out)
    {f : Ir.Field} (hf : f ∈ t.fields) {sc : Scope} (hsc : sc.Ok) (hm : sc.module = tMod t) :
    ∀ q ∈ Gen.tyPaths f.ty, LeadsTo P sc (tNs t) q := by
  intro q hq
  refine S.leads_to hx ?_ hsc hm
  simp only [Gen.paths, List.mem_flatMap]
  exact ⟨f, hf, List.mem_append_left _ hq⟩

theorem Setting.acc_sig (S : Setting gm E out P) {p : List Ident} {t : Ir.Table} (hx : (p, Node.table t) ∈ itemsOf out)
    {f : Ir.Field} (hf : f ∈ t.fields) {fn : Fn} (hfn : accessor (tName t) (tNs t) f = some fn) :
    sigOf P (accCtx t) fn = some ([.structApp (tMod t) (tName t) (.param c!"B")], accRTy f) := by
  simp only [Rs.accessor, Option.bind_eq_bind, Option.bind_eq_some_iff, Option.pure_def, Option.some.injEq] at hfn
  obtain ⟨snake, hs, r, hr, w, hw, dflt, hd, body, hb, rfl⟩ := hfn
  have hsc : (accCtx t).sc.Ok := .inr rfl
  have h1 := tyOf_token (k := accCtx t) (wrap := some c!"ForwardsUOffset") (outer := false) S.nodup S.hygienic hsc
    (by rintro _ ⟨⟩; decide) (S.hasTy ((table_defined S.translates hx).2 f hf)) (S.field_leads hx hf hsc rfl) hr
  simp only at h1
  have h2 := selfRef_ty (P := P) (k := accCtx t) rfl (by simp [accCtx, tableCtx])
  simp only [sigOf, selfParam, List.mapM_cons, List.mapM_nil, h2]
  have h3 : tyOf P (accCtx t) (resultTy (if f.required then r else optionTy r)) = some (accRTy f) := by
    refine resultTy_ty S.hygienic hsc ?_
    split
    · exact h1
    · exact optionTy_ty S.hygienic hsc h1
  rw [h3]
  rfl

/-- What a call of a method on `self` can be, in an accessor. -/
theorem Setting.inv_self (S : Setting gm E out P) {p : List Ident} {t : Ir.Table} (hx : (p, Node.table t) ∈ itemsOf out)
    (T : Typed gm P t) {ret : RTy} {Γ : Types} (hΓ : SelfIs t Γ) {x : Str} {r : RTy}
    (h : HasType P (accCtx t) ret Γ (.method (.var c!"self") x []) r) :
    ∃ f ∈ t.fields, Heck.snake f.ident = x ∧ r = accRTy f := by
  have hs : ∀ s, HasType P (accCtx t) ret Γ (.var c!"self") s → s = .structApp (tMod t) (tName t) (.param c!"B") := by
    intro s h
    cases h with
    | var h =>
      unfold SelfIs at hΓ
      rw [hΓ] at h
      exact (Option.some.inj h).symm
  cases h with
  | method h1 h2 h3 h4 h5 h6 =>
    have := hs _ h1
    subst this
    simp only [RTy.head, Option.some.injEq, Prod.mk.injEq] at h2
    obtain ⟨rfl, rfl, rfl⟩ := h2
    simp only [fnSig, Option.bind_eq_bind, Option.bind_eq_some_iff] at h4
    obtain ⟨⟨gs, g⟩, hg, s, hself, ⟨ts', r'⟩, hsig, h4⟩ := h4
    unfold isMethod at h3
    simp only [hg, beq_iff_eq] at h3
    obtain ⟨hgs, f, hf, hfa, hfn⟩ := T.methods x _ hg h3
    simp only at hgs hfa
    subst hgs
    refine ⟨f, hf, hfn, ?_⟩
    have hso : selfOf P (tMod t) (tName t) [c!"B"] = some (.structApp (tMod t) (tName t) (.param c!"B")) := by
      simp [selfOf, T.item, tableStruct]
    rw [hso] at hself
    cases hself
    rw [show (⟨⟨tMod t, [c!"B"], some (.item (tMod t) (tName t))⟩, some (.structApp (tMod t) (tName t) (.param c!"B")), []⟩ : TCtx)
      = accCtx t from rfl, S.acc_sig hx hf hfa] at hsig
    cases hsig
    simp only [Option.pure_def, Option.some.injEq, Prod.mk.injEq, subst_param] at h4
    exact h4.2.symm
  | runtimeMethod h1 h2 h3 h4 =>
    have := hs _ h1
    subst this
    cases h2

/-- The companion of a union, as the analysis has made it. -/
theorem Setting.companion (S : Setting gm E out P) {q e : QIdent} {vs : List Ir.UnionVariant}
    (hd : DefinedTy out (.union q e vs)) : ∃ p' en, (p', Node.enum en) ∈ itemsOf out ∧ en.ident = e ∧
      en.variants.map (·.ident) = c!"None" :: vs.map (·.ident) ∧ (∀ v ∈ vs, DefinedTy out v.ty) ∧
      ∃ p u, (p, Node.union u) ∈ itemsOf out ∧ u.ident = q ∧ u.variants = vs := by
  obtain ⟨⟨p, y⟩, hy, hyd⟩ := hd
  cases y <;> simp only [Node.defines, Option.some.injEq, Prod.mk.injEq, reduceCtorEq, and_false,
    Ir.CustomType.union.injEq] at hyd
  rename_i u
  obtain ⟨rfl, rfl, rfl⟩ := hyd
  obtain ⟨-, h2, ⟨⟨p', n⟩, hx', hd'⟩⟩ := union_defined S.translates hy
  cases n <;> simp only [Node.defines, Option.some.injEq, Prod.mk.injEq, reduceCtorEq, and_false, Ir.CustomType.enum.injEq] at hd'
  rename_i en
  obtain ⟨hq, hvs, -⟩ := hd'
  refine ⟨p', en, hx', hq, ?_, h2, p, u, hy, rfl, rfl⟩
  rw [hvs]
  simp

/-- Tag and members of a union field. -/
theorem Setting.union_field (S : Setting gm E out P) (W : WellTyped P) {p : List Ident} {t : Ir.Table}
    (hx : (p, Node.table t) ∈ itemsOf out) {f : Ir.Field} (hf : f ∈ t.fields) {q e : QIdent} {vs : List Ir.UnionVariant}
    (hty : f.ty = .union q e vs) : Gen.unionTagOk t.fields f = true ∧ ∃ fs, vs.mapM (fun v => Gen.followTy v.ty) = some fs := by
  have T := S.typed W hx
  have hdef := (table_defined S.translates hx).2 f hf
  rw [hty] at hdef
  obtain ⟨p', en, hen, rfl, hids, hmem, -⟩ := S.companion hdef
  have hsc : (accCtx t).sc.Ok := .inr rfl
  have hpaths : ∀ x ∈ q :: en.ident :: vs.flatMap fun v => Gen.tyPaths v.ty, Leads P (accCtx t).sc (tNs t) x := by
    intro x hx'
    refine S.leadsTo hx ?_ hsc rfl
    simp only [Gen.paths, List.mem_flatMap]
    refine ⟨f, hf, List.mem_append_right _ ?_⟩
    rw [hty]
    exact hx'
  have he : resolve P (accCtx t).sc (QIdent.relative en.ident (tNs t)) = some (.item (modOf en.ident) (QIdent.simple en.ident)) :=
    hpaths en.ident (by simp)
  obtain ⟨fn, hfn, ts, r, hsig, -, -, hbody⟩ := T.accessors f hf
  rw [S.acc_sig hx hf hfn] at hsig
  cases hsig
  simp only [Rs.accessor, Option.bind_eq_bind, Option.bind_eq_some_iff, Option.pure_def, Option.some.injEq] at hfn
  obtain ⟨snake, hs, r, hr, w, hw, dflt, hd, body, hb, rfl⟩ := hfn
  simp only [accessorBody, hty, unionBody, Option.bind_eq_bind, Option.bind_eq_some_iff, Option.pure_def, Option.some.injEq] at hb
  obtain ⟨up, hup, ep, hep, tag, htg, arms, harms, rfl⟩ := hb
  have := pathTokens_eq hup
  subst this
  have := pathTokens_eq hep
  subst this
  have := formatIdent_eq htg
  subst this
  have hΓ : SelfIs t ([c!"self"].zip [.structApp (tMod t) (tName t) (.param c!"B")]) := rfl
  have hbody : HasType P (accCtx t) (accRTy f) ([c!"self"].zip [.structApp (tMod t) (tName t) (.param c!"B")]) _ (accRTy f) := hbody
  generalize hacc : accRTy f = rr at hbody
  cases hbody with
  | ok hm =>
  cases hm with
  | «match» h1 h2 h3 h4 =>
  obtain ⟨u, h1⟩ := inv_try h1
  obtain ⟨ft, hft, hsn, hrt⟩ := S.inv_self hx T hΓ h1
  constructor
  · -- the tag
    have hlast := h2 _ (List.mem_append_right _ (List.mem_singleton_self _))
    simp only [accRTy, RTy.result.injEq] at hrt
    obtain ⟨rfl, -⟩ := hrt
    have hkey : ft.required = f.required ∧ irTy ft.ty = .enum (modOf en.ident) (QIdent.simple en.ident) := by
      by_cases hr1 : f.required = true <;> by_cases hr2 : ft.required = true <;> simp only [hr1, hr2, if_true] at hlast ⊢
      · cases hi : irTy ft.ty <;> rw [hi] at hlast <;> simp only [PatOk] at hlast
        rw [he] at hlast
        have := hlast.1
        simp only [Option.some.injEq, Def.item.injEq] at this
        simp [this.1, this.2]
      · simp [PatOk] at hlast
      · exfalso
        simp only [Bool.false_eq_true, if_false, PatOk] at hlast
        cases hi : ft.ty <;> rw [hi] at hlast <;> simp only [irTy, PatOk, and_false] at hlast
      · simp only [Bool.false_eq_true, if_false, PatOk, true_and] at hlast
        cases hi : irTy ft.ty <;> rw [hi] at hlast <;> simp only [PatOk] at hlast
        rw [he] at hlast
        have := hlast.1
        simp only [Option.some.injEq, Def.item.injEq] at this
        simp [this.1, this.2]
    obtain ⟨hreq, hit⟩ := hkey
    simp only [Gen.unionTagOk, hty, List.any_eq_true, Bool.and_eq_true, beq_iff_eq]
    refine ⟨ft, hft, ⟨hsn, hreq⟩, ?_⟩
    have hdt := (table_defined S.translates hx).2 ft hft
    cases htt : ft.ty <;> rw [htt] at hit hdt <;> simp only [irTy, reduceCtorEq, RTy.enum.injEq] at hit
    rename_i q' vs' b'
    obtain ⟨⟨p2, n⟩, hx2, hd2⟩ := hdt
    cases n <;> simp only [Node.defines, Option.some.injEq, Prod.mk.injEq, reduceCtorEq, and_false, Ir.CustomType.enum.injEq] at hd2
    rename_i e2
    obtain ⟨rfl, rfl, rfl⟩ := hd2
    have := S.enum_unique hx2 hen hit.1 hit.2
    subst this
    simp [hids]
  · -- the members
    have : ∀ v ∈ vs, ∃ y, Gen.followTy v.ty = some y := by
      intro v hv
      obtain ⟨a, ha, hva⟩ := forall₂_left (mapM_forall₂ harms) v hv
      have hta := h4 a (List.mem_append_left _ ha)
      have hF : ∃ w F, typeToken (tNs t) v.ty (some fwdPath) true = some w ∧ followTy P (accCtx t).sc w = some F := by
        split at hva
        · obtain ⟨w, hw, rfl⟩ := requiredArm_eq hva
          simp only at hta
          obtain ⟨s, h⟩ := inv_ctor hta
          obtain ⟨u, h⟩ := inv_try h
          obtain ⟨s, h⟩ := inv_method h
          obtain ⟨u, h⟩ := inv_try h
          obtain ⟨F, hF, -⟩ := inv_get h
          exact ⟨w, F, hw, hF⟩
        · obtain ⟨w, hw, rfl⟩ := optionalArm_eq hva
          simp only at hta
          cases hta with
          | mapCtor h _ _ =>
            obtain ⟨u, h⟩ := inv_try h
            obtain ⟨F, hF, -⟩ := inv_get h
            exact ⟨w, F, hw, hF⟩
      obtain ⟨w, F, hw, hF⟩ := hF
      have := S.follow_inv W hsc (hmem v hv) (fun x hx' => hpaths x (by
        simp only [List.mem_cons, List.mem_flatMap]; exact .inr (.inr ⟨v, hv, hx'⟩))) hw hF
      exact ⟨F.fty, by rw [← follows_fty, this]; rfl⟩
    clear * - this
    induction vs with
    | nil => exact ⟨[], rfl⟩
    | cons v vs ih =>
      obtain ⟨y, hy⟩ := this v List.mem_cons_self
      obtain ⟨ys, hys⟩ := ih fun v hv => this v (List.mem_cons_of_mem _ hv)
      exact ⟨y :: ys, by simp [List.mapM_cons, hy, hys]⟩

/-- The table has working code: the converse of what the typing needs. -/
theorem Setting.table_converse (S : Setting gm E out P) (W : WellTyped P) {p : List Ident} {t : Ir.Table}
    (hx : (p, Node.table t) ∈ itemsOf out) : ∃ gs, compileTable gm t = some gs := by
  have T := S.typed W hx
  have htags : t.fields.all (Gen.unionTagOk t.fields) = true := by
    rw [List.all_eq_true]
    intro f hf
    cases hty : f.ty with
    | union q e vs => exact (S.union_field W hx hf hty).1
    | _ => unfold Gen.unionTagOk; rw [hty]
  unfold compileTable
  rw [T.names, htags, Bool.and_self, if_pos rfl, Gen.compileFields_iff]
  refine ⟨?_, by simpa using T.slots⟩
  intro f hf
  have hdef := (table_defined S.translates hx).2 f hf
  by_cases hun : f.ty.isUnion = true
  · cases hty : f.ty <;> rw [hty] at hun <;> try cases hun
    rename_i q e vs
    obtain ⟨fs, hfs⟩ := (S.union_field W hx hf hty).2
    refine ⟨_, Gen.kindOf_union_iff.mpr ⟨?_, fs, hfs, rfl⟩⟩
    -- otherwise the generator would have stopped at the comment about the default
    obtain ⟨args, dflt, adds, consts, accs, ds, h1, -⟩ := S.table hx
    obtain ⟨a, -, ha⟩ := forall₂_left (mapM_forall₂ h1) f hf
    simp only [argField, Option.bind_eq_bind, Option.bind_eq_some_iff] at ha
    obtain ⟨-, -, _, hdoc, -⟩ := ha
    rw [Gen.unionDefault_iff]
    refine ⟨fun i h => ?_, fun x h => ?_⟩ <;> simp [h, defaultDoc, hty, Ir.Ty.isUnion] at hdoc
  · have hun : f.ty.isUnion = false := by simpa using hun
    obtain ⟨fn, hfn, ts, r, hsig, -, -, hbody⟩ := T.accessors f hf
    simp only [Rs.accessor, Option.bind_eq_bind, Option.bind_eq_some_iff, Option.pure_def, Option.some.injEq] at hfn
    obtain ⟨snake, hs, r', hr, w, hw, dflt, hd, body, hb, rfl⟩ := hfn
    have hbd : body = plainBody (tName t) f snake w dflt := by
      unfold accessorBody at hb
      split at hb
      · rename_i h; rw [h] at hun; cases hun
      · exact (Option.some.inj hb).symm
    subst hbd
    obtain ⟨F, hF, hdt⟩ := inv_plain (k := accCtx t) hbody
    exact S.kind_plain W (k := accCtx t) (.inr rfl) hun hdef (fun q hq => (S.field_leads hx hf (.inr rfl) rfl q hq).1) hw hF hd hdt

/-! ### Defaults -/

theorem inv_struct {k : TCtx} {ret : RTy} {Γ : Types} {w : Ty} {fs : List (Str × Expr)} {T : RTy}
    (h : HasType P k ret Γ (.struct w fs) T) : ∀ a ∈ fs, ∃ s, HasType P k ret Γ a.2 s := by
  cases h with
  | struct _ _ h1 h2 =>
    rename_i decl _ _
    intro a ha
    obtain ⟨i, hi, rfl⟩ := List.mem_iff_getElem.mp ha
    have hlen : fs.length = decl.length := by simpa using congrArg List.length h1
    exact ⟨_, h2 (fs[i], decl[i]'(hlen ▸ hi)) (by
      rw [List.mem_iff_getElem]
      exact ⟨i, by simp [hlen ▸ hi, hi], by simp⟩)⟩

theorem inv_default {k : TCtx} {ret : RTy} {Γ : Types} {w : Ty} {T : RTy} {m : List Str} {n : Str}
    (hd : defOf P k.sc w = some (.item m n)) (h : HasType P k ret Γ (.call w c!"default" []) T) :
    ∃ s, tyOf P k w = some s ∧ c!"default" ∉ variantsOf P s := by
  generalize hf : c!"default" = f at h
  cases h with
  | call h1 _ h2 _ _ _ => exact ⟨_, h1, h2⟩
  | runtime h1 h2 _ _ =>
    rw [hd] at h1
    cases h1
    cases h2

/-- No variant is mistaken for the function `default`. -/
theorem Setting.defaults_converse (S : Setting gm E out P) (W : WellTyped P) {p : List Ident} {t : Ir.Table}
    (hx : (p, Node.table t) ∈ itemsOf out) (hc : canDefault t.fields = true) {f : Ir.Field} (hf : f ∈ t.fields) {q : QIdent}
    {vs : List Ir.EnumVariant} {b : Ir.EnumBase} (hty : f.ty = .enum q vs b) (hd : f.default = none) :
    c!"default" ∉ vs.map (·.ident) := by
  obtain ⟨args, dflt, adds, consts, accs, ds, h1, h2, h3, h4, h5, hp⟩ := S.table hx
  rcases h2 with ⟨hc', -⟩ | ⟨-, hds, rfl⟩
  · rw [hc] at hc'; cases hc'
  obtain ⟨s, hs, -, assoc, name, ts, r, g, h6, h7, h8, h9, ts', r', -, -, -, hbody⟩ :=
    (W.placed hp (x := argsDefault (tName t) ds) (by simp [tableItems])).2
  cases h7
  have hbody : HasType P _ r' _ (.struct selfTy ds) r' := hbody
  obtain ⟨a, ha, hfa⟩ := forall₂_left (mapM_forall₂ hds) f hf
  obtain ⟨u, hu⟩ := inv_struct hbody a ha
  simp only [argDefault, argDefaultExpr, hty, hd, Option.bind_eq_bind, Option.bind_eq_some_iff, Option.pure_def,
    Option.some.injEq] at hfa
  obtain ⟨w, hw, e, he, rfl⟩ := hfa
  simp only [Ir.Ty.isScalar, Bool.not_true, Bool.false_eq_true, if_false, Option.some.injEq] at he
  subst he
  have hdef := (table_defined S.translates hx).2 f hf
  have hsc : ∀ d, (⟨tMod t, [], d⟩ : Scope).Ok := fun d => .inl rfl
  rw [hty] at hdef
  have hl := fun d => S.field_leads hx hf (hsc d) rfl
  rw [hty] at hl
  have htok := tyOf_token (k := ⟨⟨tMod t, [], selfDef P ⟨tMod t, [], none⟩ (.path [tName t ++ c!"Args"])⟩, some s, assoc⟩) (wrap := none)
    S.nodup S.hygienic (hsc _) (by rintro _ ⟨⟩) (S.hasTy hdef) (hl _) hw
  simp only [typeToken, Option.bind_eq_bind, Option.bind_eq_some_iff, Option.pure_def, Option.some.injEq] at hw
  obtain ⟨pt, hpt, rfl⟩ := hw
  have := pathTokens_eq hpt
  subst this
  obtain ⟨s', hs', hv⟩ := inv_default (k := ⟨⟨tMod t, [], selfDef P ⟨tMod t, [], none⟩ (.path [tName t ++ c!"Args"])⟩, some s, assoc⟩)
    (w := .path (QIdent.relative q (tNs t))) (m := modOf q) (n := QIdent.simple q) (hl _ q (by simp [Gen.tyPaths])).1 hu
  rw [htok] at hs'
  cases hs'
  simp only [irTy] at hv
  rwa [variantsOf_enum S.nodup (S.hasTy hdef)] at hv

/-- The program is well-typed exactly when the schema keeps to the rules. -/
theorem Setting.wellTyped_iff (S : Setting gm E out P) : WellTyped P ↔ Acceptable gm out P := by
  refine ⟨fun W => ?_, S.wellTyped⟩
  exact { names := W.names
          tables := fun p t hx => S.table_converse W hx
          defaults := fun p t hx hc f hf q vs b hty hd => S.defaults_converse W hx hc hf hty hd
          values := fun p e hx => (S.enum_converse W hx).1
          variants := fun p e hx => (S.enum_converse W hx).2
          flat := fun p u hx => (S.union_converse W hx).1
          lifetimes := fun p u hx => (S.union_converse W hx).2 }

end

end Butte.Rs
