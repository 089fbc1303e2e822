import Verif.Rs.Step
import Verif.Gen.Untrusted
/-
What the emitted program has for a table that there is working code for.
-/
namespace Butte.Rs
open Ir (QIdent Node Ident itemsOf Translates)
open Gen (formatIdent formatIdent_eq GField Kind compileTable kindOf)

/-- The module of a table, its name, and its namespace. -/
abbrev tMod (t : Ir.Table) : List Str := modOf t.ident
@[inherit_doc tMod]
abbrev tName (t : Ir.Table) : Str := QIdent.simple t.ident
@[inherit_doc tMod]
abbrev tNs (t : Ir.Table) : Option QIdent := QIdent.namespace t.ident

/-- The fields of a table, and what is generated for them. -/
structure Compiled (gm : Mode) (t : Ir.Table) (gs : List GField) : Prop where
  ids : (t.fields.map (·.ident)).Nodup
  accs : (t.fields.map (fun f => Heck.snake f.ident) ++ [c!"create", c!"get_root"]).Nodup
  usable : ∀ f ∈ t.fields, Gen.rustName f.ident = true
  shouty : (t.fields.map (fun f => Heck.shouty f.ident)).Nodup
  tags : ∀ f ∈ t.fields, Gen.unionTagOk t.fields f = true
  length : gs.length = t.fields.length
  fields : ∀ (i : Nat) f, t.fields[i]? = some f → ∃ g, gs[i]? = some g ∧ g.name = Heck.snake f.ident ∧
    g.required = f.required ∧ Gen.slotOf gm i = some g.slot ∧ kindOf f.ty f.default = some g.kind

theorem compileFields_get {gm : Mode} {fs : List Ir.Field} {k : Nat} {gs : List GField}
    (h : Gen.compileFields gm k fs = some gs) : gs.length = fs.length ∧
      ∀ (i : Nat) f, fs[i]? = some f → ∃ g, gs[i]? = some g ∧ g.name = Heck.snake f.ident ∧ g.required = f.required ∧
        Gen.slotOf gm (k + i) = some g.slot ∧ kindOf f.ty f.default = some g.kind := by
  induction fs generalizing k gs with
  | nil =>
    simp only [Gen.compileFields, Option.some.injEq] at h
    subst h
    simp
  | cons f fs ih =>
    simp only [Gen.compileFields, Option.bind_eq_bind, Option.bind_eq_some_iff, Option.pure_def, Option.some.injEq] at h
    obtain ⟨kd, hk, s, hs, gs', hg, rfl⟩ := h
    obtain ⟨h1, h2⟩ := ih hg
    refine ⟨by simp [h1], ?_⟩
    intro i f' hf
    cases i with
    | zero =>
      simp only [List.getElem?_cons_zero, Option.some.injEq] at hf
      subst hf
      exact ⟨_, rfl, rfl, rfl, by simpa using hs, hk⟩
    | succ i =>
      rw [List.getElem?_cons_succ] at hf
      obtain ⟨g, e1, e2, e3, e4, e5⟩ := h2 i f' hf
      exact ⟨g, by simpa using e1, e2, e3, by rw [← e4]; congr 1; omega, e5⟩

theorem Compiled.of {gm : Mode} {t : Ir.Table} {gs : List GField} (h : compileTable gm t = some gs) : Compiled gm t gs := by
  unfold compileTable at h
  split at h
  · rename_i hc
    simp only [Gen.namesOk, Bool.and_eq_true, decide_eq_true_eq, List.all_eq_true, List.mem_map, forall_exists_index, and_imp,
      forall_apply_eq_imp_iff₂] at hc
    obtain ⟨⟨⟨⟨⟨h1, h2⟩, h3⟩, h4⟩, h5⟩, h6⟩ := hc
    obtain ⟨e1, e2⟩ := compileFields_get h
    exact ⟨h1, h2, h3, h5, h6, e1, by simpa using e2⟩
  · cases h

/-- What the program has for a table. -/
structure TableAt (gm : Mode) (P : Program) (t : Ir.Table) (gs : List GField) : Prop extends Compiled gm t gs where
  compiled : compileTable gm t = some gs
  hygienic : Hygienic P
  nodup : P.names.Nodup
  own : (⟨tMod t, .type, tName t⟩ : Gen.Item) ∈ P.names
  ownArgs : (⟨tMod t, .type, tName t ++ c!"Args"⟩ : Gen.Item) ∈ P.names
  ownBuilder : (⟨tMod t, .type, tName t ++ c!"Builder"⟩ : Gen.Item) ∈ P.names
  item : itemOf P (tMod t) (tName t) = some (tableStruct (tName t))
  argsItem : ∃ args, itemOf P (tMod t) (tName t ++ c!"Args") = some (.struct (tName t ++ c!"Args") [] args) ∧
    args.map (·.1) = t.fields.map (·.ident)
  builderItem : itemOf P (tMod t) (tName t ++ c!"Builder") = some (builderStruct (tName t))
  const : ∀ (i : Nat) f g, t.fields[i]? = some f → gs[i]? = some g →
    constOf P (tMod t) (tName t) (offsetId f) = some g.slot
  create : fnOf P (tMod t) (tName t) c!"create" = some ([], createFn (tName t) t.fields)
  getRoot : fnOf P (tMod t) (tName t) c!"get_root" = some ([c!"B"], getRootFn)
  accessor : ∀ f ∈ t.fields, ∃ g, accessor (tName t) (tNs t) f = some g ∧
    fnOf P (tMod t) (tName t) (Heck.snake f.ident) = some ([c!"B"], g)
  new : fnOf P (tMod t) (tName t ++ c!"Builder") c!"new" = some ([], newFn (tName t))
  finish : fnOf P (tMod t) (tName t ++ c!"Builder") c!"finish" = some ([], finishFn (tName t) t.fields)
  add : ∀ f ∈ t.fields, ∃ g, addMethod (tName t) (tNs t) f = some g ∧
    fnOf P (tMod t) (tName t ++ c!"Builder") (addName f) = some ([], g)
  default : canDefault t.fields = true → ∃ ds, t.fields.mapM (argDefault (tNs t)) = some ds ∧
    fnOf P (tMod t) (tName t ++ c!"Args") c!"default" = some ([], defaultFn ds)
  types : ∀ f ∈ t.fields, HasTy P f.ty
  members : ∀ f ∈ t.fields, ∀ q e vs, f.ty = .union q e vs → ∀ v ∈ vs, HasTy P v.ty
  leads : ∀ sc : Scope, sc.Ok → sc.module = tMod t → ∀ q ∈ Gen.paths (.table t), Leads P sc (tNs t) q

theorem argField_name {ns : Option QIdent} {f : Ir.Field} {a : Str × Ty} (h : argField ns f = some a) : a.1 = f.ident := by
  simp only [argField, Option.bind_eq_bind, Option.bind_eq_some_iff, Option.pure_def, Option.some.injEq] at h
  obtain ⟨_, _, _, _, rfl⟩ := h
  rfl

theorem Setting.tableAt {gm : Mode} {E : List Ast.Element} {out : List Node} {P : Program} (S : Setting gm E out P)
    {p : List Ident} {t : Ir.Table} {gs : List GField} (hx : (p, Node.table t) ∈ itemsOf out)
    (hc : compileTable gm t = some gs) : TableAt gm P t gs := by
  have C := Compiled.of hc
  obtain ⟨args, dflt, adds, consts, accs, ds, h1, h2, h3, h4, h5, hp⟩ := S.table hx
  have hd : dflt = [] ∨ dflt = [argsDefault (QIdent.simple t.ident) ds] := by tauto
  have own : (⟨tMod t, .type, tName t⟩ : Gen.Item) ∈ P.names :=
    hp.mem_names ⟨tableStruct (tName t), by simp [tableItems], rfl⟩
  have ownA : (⟨tMod t, .type, tName t ++ c!"Args"⟩ : Gen.Item) ∈ P.names :=
    hp.mem_names ⟨.struct (tName t ++ c!"Args") [] args, by simp [tableItems], rfl⟩
  have ownB : (⟨tMod t, .type, tName t ++ c!"Builder"⟩ : Gen.Item) ∈ P.names :=
    hp.mem_names ⟨builderStruct (tName t), by simp [tableItems], rfl⟩
  have pl : Plain (tName t) := .of_reserved (S.hygienic.plain own)
  have plA := (Plain.of_reserved (S.hygienic.plain ownA)).prim
  have plB := (Plain.of_reserved (S.hygienic.plain ownB)).prim
  refine { C with
    compiled := hc
    hygienic := S.hygienic, nodup := S.nodup, own := own, ownArgs := ownA, ownBuilder := ownB
    item := table_item hp S.nodup hd
    argsItem := ⟨args, args_item hp S.nodup hd, map_of_forall₂ (fun a b => argField_name (f := a) (a := b)) (mapM_forall₂ h1)⟩
    builderItem := builder_item hp S.nodup hd
    const := ?_
    create := table_create hp S.nodup hd pl h5 C.accs
    getRoot := table_getRoot hp S.nodup hd pl h5 C.accs
    accessor := fun f hf => table_accessor hp S.nodup hd pl h5 C.accs hf
    new := builder_new hp S.nodup hd plB h3
    finish := builder_finish hp S.nodup hd plB h3
    add := fun f hf => builder_add hp S.nodup hd plB h3 C.ids hf
    default := ?_
    types := fun f hf => S.hasTy ((table_defined S.translates hx).2 f hf)
    members := ?_
    leads := fun sc hsc hm q hq => S.leadsTo hx hq hsc hm }
  · intro i f g hf hg
    obtain ⟨s, e1, e2⟩ := table_const hp S.nodup hd pl h4 C.shouty hf
    obtain ⟨g', e3, -, -, e4, -⟩ := C.fields i f hf
    rw [hg] at e3
    cases e3
    rw [e1] at e4
    cases e4
    exact e2
  · intro hcd
    rcases h2 with ⟨hc', -⟩ | ⟨-, hds, rfl⟩
    · rw [hcd] at hc'; cases hc'
    · exact ⟨ds, hds, args_default hp S.nodup plA⟩
  · intro f hf q e vs hty v hv
    have hdef := (table_defined S.translates hx).2 f hf
    rw [hty] at hdef
    obtain ⟨⟨p', y⟩, hy, hyd⟩ := hdef
    cases y <;> simp only [Node.defines, Option.some.injEq, Prod.mk.injEq, reduceCtorEq, and_false,
      Ir.CustomType.union.injEq] at hyd
    rename_i u
    obtain ⟨rfl, rfl, rfl⟩ := hyd
    exact S.hasTy ((union_defined S.translates hy).2.1 v hv)

end Butte.Rs
