import Verif.Rs.Resolve
import Verif.Gen.Compile
import Verif.Props.Program
/-
The types of the emitted program, and what following them means.
-/
namespace Butte.Rs
open Ir (QIdent Node Ident itemsOf Translates)
open Gen (formatIdent formatIdent_eq PathsLead)

/-! ### What the analysis has found -/

/-- Every name in the type is defined by an item, in the way the type says. -/
def DefinedTy (out : List Node) : Ir.Ty → Prop
  | .builtin _ | .string => True
  | .array t => DefinedTy out t
  | .table q => ∃ y ∈ itemsOf out, y.2.defines = some (q, .table)
  | .struct q fs => ∃ y ∈ itemsOf out, y.2.defines = some (q, .struct fs)
  | .enum q vs b => ∃ y ∈ itemsOf out, y.2.defines = some (q, .enum vs b)
  | .union q e vs => ∃ y ∈ itemsOf out, y.2.defines = some (q, .union e vs)

theorem means_defined {out items : List Node} (hh : Ir.HoldsItems out items) {ns : Option Ast.QIdent} {t : Ast.Ty}
    {ty : Ir.Ty} (h : Ir.Means (Ir.Names.ofItems items) ns t ty) : DefinedTy out ty := by
  induction h with
  | builtin b => trivial
  | string => trivial
  | array _ ih => exact ih
  | table q h =>
    obtain ⟨n, hn, hd⟩ := h
    exact ⟨_, Ir.holds_mem hh hn, hd⟩
  | custom q ct h =>
    obtain ⟨n, hn, hd⟩ := h
    cases ct <;> exact ⟨_, Ir.holds_mem hh hn, hd⟩

theorem fields_defined {out items : List Node} (hh : Ir.HoldsItems out items) {ns : Option Ast.QIdent} {fs : List Ast.Field}
    {gs : List Ir.Field} (h : Ir.FieldsMean (Ir.Names.ofItems items) ns fs gs) : ∀ g ∈ gs, DefinedTy out g.ty := by
  induction h with
  | nil => simp
  | plain hq hm hu _ ih =>
    intro g hg
    rcases List.mem_cons.mp hg with rfl | hg
    · exact means_defined hh hm
    · exact ih g hg
  | union hq hm he _ ih =>
    intro g hg
    rcases List.mem_cons.mp hg with rfl | hg
    · obtain ⟨n, hn, hd⟩ := he
      exact ⟨_, Ir.holds_mem hh hn, hd⟩
    · rcases List.mem_cons.mp hg with rfl | hg
      · exact means_defined hh hm
      · exact ih g hg

theorem table_defined {E : List Ast.Element} {out : List Node} (h : Translates E out) {p : List Ident} {t : Ir.Table}
    (hx : (p, Node.table t) ∈ itemsOf out) : p = t.ident.dropLast ∧ ∀ f ∈ t.fields, DefinedTy out f.ty := by
  obtain ⟨groups, g1, g2, _⟩ := h
  refine ⟨(Ir.holds_path g1 hx).2.symm, ?_⟩
  obtain ⟨g, hg, hxg⟩ := List.mem_flatten.mp (Ir.holds_path g1 hx).1
  obtain ⟨p, _, el, hel, hem⟩ := Ir.all₂_right g2 hg
  cases hem with
  | table decl fields root h =>
    simp only [List.mem_singleton, Node.table.injEq] at hxg
    subst hxg
    exact fields_defined g1 h
  | _ => simp at hxg

theorem union_defined {E : List Ast.Element} {out : List Node} (h : Translates E out) {p : List Ident} {u : Ir.Union}
    (hx : (p, Node.union u) ∈ itemsOf out) : p = u.ident.dropLast ∧ (∀ v ∈ u.variants, DefinedTy out v.ty) ∧
      DefinedTy out (.enum u.enumIdent (⟨c!"None", some 0, []⟩ :: u.variants.map fun v => ⟨v.ident, none, v.doc⟩) .ubyte) := by
  obtain ⟨groups, g1, g2, _⟩ := h
  refine ⟨(Ir.holds_path g1 hx).2.symm, ?_⟩
  obtain ⟨g, hg, hxg⟩ := List.mem_flatten.mp (Ir.holds_path g1 hx).1
  obtain ⟨p, _, el, hel, hem⟩ := Ir.all₂_right g2 hg
  cases hem with
  | union decl vs h =>
    simp only [List.mem_cons, List.not_mem_nil, or_false, reduceCtorEq, false_or, Node.union.injEq] at hxg
    subst hxg
    constructor
    · intro v hv
      obtain ⟨a, _, ty, hm, rfl⟩ := Ir.all₂_right h hv
      exact means_defined g1 hm
    · have hmem : Node.enum ⟨Ir.tagEnumIn (Ir.lastNs (E.take p)) decl.id,
          ⟨c!"None", some 0, []⟩ :: decl.variants.map fun v => ⟨Ir.fixIdentifier v.id, none, v.doc⟩, .ubyte, decl.doc⟩ ∈
            groups.flatten :=
        List.mem_flatten.mpr ⟨_, hg, by simp⟩
      refine ⟨_, Ir.holds_mem g1 hmem, ?_⟩
      simp only [Node.defines, Option.some.injEq, Prod.mk.injEq, true_and, Ir.CustomType.enum.injEq, and_true,
        List.cons.injEq]
      exact Ir.all₂_map h (by rintro a b ⟨ty, _, rfl⟩; rfl)
  | _ => simp at hxg

/-! ### The whole program -/

/-- A schema and the program emitted for it, with what the other properties establish: names do not clash (C71), paths lead
where they should (C70), and no declaration takes a name that the generated code relies on. -/
structure Setting (gm : Mode) (E : List Ast.Element) (out : List Node) (P : Program) : Prop where
  translates : Translates E out
  emitted : emit gm out = some P
  nodup : P.names.Nodup
  leads : PathsLead out P.names
  hygienic : Hygienic P

/-- The module of an item. -/
def modOf (q : QIdent) : List Str := q.dropLast.map Heck.snake

/-- What the program contains for a type. -/
def HasTy (P : Program) : Ir.Ty → Prop
  | .builtin _ | .string => True
  | .array t => HasTy P t
  | .table q => itemOf P (modOf q) (QIdent.simple q) = some (tableStruct (QIdent.simple q)) ∧
      implements P (modOf q) (QIdent.simple q) c!"Follow" = true
  | .struct .. => False
  | .enum q vs b => ∃ vl, (List.zipIdx vs).mapM (variantLit (baseName b)) = some vl ∧
      Placed P (modOf q) (enumItems (QIdent.simple q) (baseName b) vl)
  | .union q e vs => ∃ es us, pathTokens (QIdent.relative e (QIdent.namespace q)) = some es ∧
      vs.mapM (unionVariant (QIdent.namespace q)) = some us ∧ Placed P (modOf q) (unionItems (QIdent.simple q) es us)

/-- A scope in which relative paths from a namespace mean what they should. -/
def Leads (P : Program) (sc : Scope) (ns : Option QIdent) (q : QIdent) : Prop :=
  resolve P sc (QIdent.relative q ns) = some (.item (modOf q) (QIdent.simple q))

section
variable {gm : Mode} {E : List Ast.Element} {out : List Node} {P : Program}

theorem Setting.path (S : Setting gm E out P) {y : List Ident × Node} (hy : y ∈ itemsOf out) :
    y.1.map Heck.snake = modOf y.2.ident := by
  obtain ⟨groups, g1, _⟩ := S.translates
  rw [modOf, (Ir.holds_path g1 hy).2]

/-- What is emitted for a table. -/
theorem Setting.table (S : Setting gm E out P) {p : List Ident} {t : Ir.Table} (hx : (p, Node.table t) ∈ itemsOf out) :
    ∃ args dflt adds consts accs ds,
      t.fields.mapM (argField (QIdent.namespace t.ident)) = some args ∧
      ((canDefault t.fields = false ∧ dflt = []) ∨ (canDefault t.fields = true ∧
        t.fields.mapM (argDefault (QIdent.namespace t.ident)) = some ds ∧
          dflt = [argsDefault (QIdent.simple t.ident) ds])) ∧
      t.fields.mapM (addMethod (QIdent.simple t.ident) (QIdent.namespace t.ident)) = some adds ∧
      (List.zipIdx t.fields).mapM (fun x => slotConst gm x.2 x.1) = some consts ∧
      t.fields.mapM (accessor (QIdent.simple t.ident) (QIdent.namespace t.ident)) = some accs ∧
      Placed P (modOf t.ident) (tableItems (QIdent.simple t.ident) args dflt adds consts accs t.fields) := by
  obtain ⟨items, hi, hp⟩ := emit_table S.emitted hx
  obtain ⟨args, dflt, adds, consts, accs, -, -, h1, h2, h3, h4, h5, rfl⟩ := emitTable_eq hi
  have e : p.map Heck.snake = modOf t.ident := S.path hx
  rw [e] at hp
  rcases h2 with ⟨hc, rfl⟩ | ⟨hc, ds, hds, rfl⟩
  · exact ⟨args, _, adds, consts, accs, [], h1, .inl ⟨hc, rfl⟩, h3, h4, h5, hp⟩
  · exact ⟨args, _, adds, consts, accs, ds, h1, .inr ⟨hc, hds, rfl⟩, h3, h4, h5, hp⟩

theorem Setting.hasTy (S : Setting gm E out P) : ∀ {ty : Ir.Ty}, DefinedTy out ty → HasTy P ty
  | .builtin _, _ | .string, _ => trivial
  | .array t, h => S.hasTy (ty := t) h
  | .table q, h => by
    obtain ⟨⟨p, y⟩, hy, hd⟩ := h
    cases y <;> simp only [Node.defines, Option.some.injEq, Prod.mk.injEq, reduceCtorEq, and_false, and_true] at hd
    subst hd
    rename_i t
    obtain ⟨args, dflt, adds, consts, accs, ds, -, h2, -, -, -, hp⟩ := S.table hy
    have h2 : dflt = [] ∨ dflt = [argsDefault (QIdent.simple t.ident) ds] := by tauto
    have hmem : (⟨modOf t.ident, .type, QIdent.simple t.ident⟩ : Gen.Item) ∈ P.names :=
      hp.mem_names ⟨tableStruct (QIdent.simple t.ident), by simp [tableItems], rfl⟩
    refine ⟨table_item hp S.nodup h2, ?_⟩
    refine implements_of S.hygienic (.inl rfl) (cs := []) (fs := [followFn]) ?_
    · rw [table_impls hp S.nodup h2 (.of_reserved (S.hygienic.plain hmem))]
      simp [followPath]
  | .struct q fs, h => by
    obtain ⟨⟨p, y⟩, hy, hd⟩ := h
    cases y <;> simp only [Node.defines, Option.some.injEq, Prod.mk.injEq, reduceCtorEq, and_false] at hd
    obtain ⟨Q, hq, -⟩ := emit_placed S.emitted hy
    simp [emitNode] at hq
  | .enum q vs b, h => by
    obtain ⟨⟨p, y⟩, hy, hd⟩ := h
    cases y <;> simp only [Node.defines, Option.some.injEq, Prod.mk.injEq, reduceCtorEq, and_false,
      Ir.CustomType.enum.injEq] at hd
    obtain ⟨rfl, rfl, rfl⟩ := hd
    obtain ⟨items, hi, hp⟩ := emit_enum S.emitted hy
    obtain ⟨vl, -, hv, rfl⟩ := emitEnum_eq hi
    have e : p.map Heck.snake = _ := S.path hy
    rw [e] at hp
    exact ⟨vl, hv, hp⟩
  | .union q e vs, h => by
    obtain ⟨⟨p, y⟩, hy, hd⟩ := h
    cases y <;> simp only [Node.defines, Option.some.injEq, Prod.mk.injEq, reduceCtorEq, and_false,
      Ir.CustomType.union.injEq] at hd
    obtain ⟨rfl, rfl, rfl⟩ := hd
    obtain ⟨items, hi, hp⟩ := emit_union S.emitted hy
    obtain ⟨es, us, -, h1, h2, rfl⟩ := emitUnion_eq hi
    have e : p.map Heck.snake = _ := S.path hy
    rw [e] at hp
    exact ⟨es, us, h1, h2, hp⟩

theorem Setting.leadsTo (S : Setting gm E out P) {x : List Ident × Node} (hx : x ∈ itemsOf out) {q : QIdent}
    (hq : q ∈ Gen.paths x.2) {sc : Scope} (hsc : sc.Ok) (hm : sc.module = modOf x.2.ident) :
    Leads P sc (QIdent.namespace x.2.ident) q := by
  have h := (S.leads x hx q hq).2
  rw [S.path hx, ← hm] at h
  exact resolve_lookup S.hygienic hsc h

end

/-! ### Enums -/

theorem variantLit_names {base : Str} {vs : List Ir.EnumVariant} {k : Nat} {vl : List (Str × Lit)}
    (h : (List.zipIdx vs k).mapM (variantLit base) = some vl) :
    vl = (List.zipIdx vs k).map fun x => (x.1.ident, .int (x.1.value.getD x.2) base) := by
  induction vs generalizing k vl with
  | nil =>
    simp only [List.zipIdx_nil, List.mapM_nil, Option.pure_def, Option.some.injEq] at h
    subst h; rfl
  | cons v vs ih =>
    simp only [List.zipIdx_cons, List.mapM_cons, Option.pure_def, Option.bind_eq_bind, Option.bind_eq_some_iff,
      Option.some.injEq, variantLit] at h
    obtain ⟨b, ⟨i, hi, rfl⟩, bs, hbs, rfl⟩ := h
    have := formatIdent_eq hi
    subst this
    rw [List.zipIdx_cons, List.map_cons, ← ih hbs]

theorem variants_vals {t : STy} {vs : List Ir.EnumVariant} {k : Nat} {xs : List (SVal t)}
    (h : Gen.variantValues t k vs = some xs) :
    ((List.zipIdx vs k).map fun x => ((x.1.ident, .int (x.1.value.getD x.2) (primName t)) : Str × Lit)).mapM
      (fun v => do
        let x ← litVal t v.2
        pure (v.1, x)) = some ((vs.map (·.ident)).zip xs) := by
  induction vs generalizing k xs with
  | nil =>
    simp only [Gen.variantValues, Option.some.injEq] at h
    subst h; rfl
  | cons v vs ih =>
    simp only [Gen.variantValues, Option.bind_eq_bind, Option.bind_eq_some_iff, Option.pure_def, Option.some.injEq] at h
    obtain ⟨x, hx, ys, hys, rfl⟩ := h
    simp only [List.zipIdx_cons, List.map_cons, List.mapM_cons, litVal, if_true, hx, Option.bind_eq_bind, Option.bind_some,
      Option.pure_def, List.zip_cons_cons]
    have := ih hys
    simp only [litVal, if_true, Option.bind_eq_bind, Option.pure_def] at this
    rw [this]
    rfl

theorem variantValues_length {t : STy} {vs : List Ir.EnumVariant} {k : Nat} {xs : List (SVal t)}
    (h : Gen.variantValues t k vs = some xs) : xs.length = vs.length := by
  induction vs generalizing k xs with
  | nil =>
    simp only [Gen.variantValues, Option.some.injEq] at h
    subst h; rfl
  | cons v vs ih =>
    simp only [Gen.variantValues, Option.bind_eq_bind, Option.bind_eq_some_iff, Option.pure_def, Option.some.injEq] at h
    obtain ⟨x, hx, ys, hys, rfl⟩ := h
    simp [ih hys]

theorem enumValues_some {t : STy} {vs : List Ir.EnumVariant} {xs : List (SVal t)} (h : Gen.enumValues t vs = some xs) :
    Gen.variantValues t 0 vs = some xs ∧ xs.length = vs.length ∧ vs ≠ [] ∧ (vs.map (·.ident)).Nodup ∧ xs.Nodup := by
  simp only [Gen.enumValues, Option.bind_eq_bind, Option.bind_eq_some_iff] at h
  obtain ⟨ys, hy, h⟩ := h
  split at h
  · cases h
  · rename_i hc
    simp only [Option.some.injEq] at h
    subst h
    push Not at hc
    exact ⟨hy, variantValues_length hy, hc.1, hc.2.1, hc.2.2⟩

/-- The enum as the program has it. -/
theorem enumOf_placed {P : Program} (hn : P.names.Nodup) {m : List Str} {n : Str} {b : Ir.EnumBase}
    {vs : List Ir.EnumVariant} {vl : List (Str × Lit)} (hv : (List.zipIdx vs).mapM (variantLit (baseName b)) = some vl)
    (h : Placed P m (enumItems n (baseName b) vl)) {xs : List (SVal (Gen.enumBaseSTy b))}
    (hx : Gen.enumValues (Gen.enumBaseSTy b) vs = some xs) :
    enumOf P m n = some ⟨Gen.enumBaseSTy b, (vs.map (·.ident)).zip xs⟩ := by
  obtain ⟨h1, h2, -, h4, h5⟩ := enumValues_some hx
  have hvl := variantLit_names hv
  have hvals := variants_vals h1
  rw [enumOf, enum_item h hn]
  simp only [baseName, primOf_primName, Option.bind_eq_bind, Option.bind_some]
  unfold baseName at hvl
  rw [← hvl] at hvals
  simp only [Option.bind_eq_bind, Option.pure_def] at hvals
  rw [Option.pure_def, hvals, Option.bind_some, if_pos]
  rw [List.map_fst_zip (by simp [h2]), List.map_snd_zip (by simp [h2])]
  exact ⟨h4, h5⟩

/-! ### Following -/

/-- The `Follow` type of a type of the schema. -/
def follows : Ir.Ty → Option FollowTy
  | .builtin b => some (.scalar (Gen.builtinSTy b))
  | .string => some (.fwd .str)
  | .array t => (follows t).map fun e => .fwd (.vector e)
  | .table q => some (.fwd (.table (modOf q) (QIdent.simple q)))
  | .struct .. => none
  | .enum q vs b => (Gen.enumValues (Gen.enumBaseSTy b) vs).map fun xs =>
      .enum (modOf q) (QIdent.simple q) (Gen.enumBaseSTy b) ((vs.map (·.ident)).zip xs)
  | .union .. => none

theorem follows_fty : ∀ ty : Ir.Ty, (follows ty).map FollowTy.fty = Gen.followTy ty
  | .builtin b => rfl
  | .string => rfl
  | .array t => by
    have := follows_fty t
    rw [Gen.followTy, ← this, follows]
    cases follows t <;> rfl
  | .table q => rfl
  | .struct .. => rfl
  | .enum q vs b => by
    rw [Gen.followTy, follows]
    cases h : Gen.enumValues (Gen.enumBaseSTy b) vs with
    | none => rfl
    | some xs =>
      have := (enumValues_some h).2.1
      simp only [Option.map_some, FollowTy.fty, Option.bind_eq_bind, Option.bind_some, Option.pure_def, Gen.enumFTy,
        Option.some.injEq, FTy.enum.injEq, true_and]
      show List.map ((fun x : SVal _ => x.val) ∘ Prod.snd) _ = _
      rw [← List.map_map, List.map_snd_zip (by simp [this])]
  | .union .. => rfl

/-- The written type, wrapped or not, is followed as it should be. -/
theorem followTy_token {P : Program} {sc : Scope} {ns : Option QIdent} (hn : P.names.Nodup) (hh : Hygienic P) (hsc : sc.Ok) :
    ∀ {ty : Ir.Ty} {w : Ty} {F : FollowTy}, HasTy P ty → (∀ q ∈ Gen.tyPaths ty, Leads P sc ns q) →
      typeToken ns ty (some fwdPath) true = some w → follows ty = some F → followTy P sc w = some F
  | .builtin b, w, F, _, _, hw, hF => by
    simp only [typeToken, Option.some.injEq] at hw
    simp only [follows, Option.some.injEq] at hF
    subst hw hF
    rw [followTy, builtinName, resolve_prim hh hsc]
  | .string, w, F, _, _, hw, hF => by
    simp only [typeToken, Option.some.injEq, wrapped, if_true] at hw
    simp only [follows, Option.some.injEq] at hF
    subst hw hF
    simp only [fwdPath, strTy, followTy, resolve_butte hh hsc, resolve_str hh hsc, if_true, Option.map_some]
  | .array t, w, F, ht, hq, hw, hF => by
    simp only [typeToken, Option.bind_eq_bind, Option.bind_eq_some_iff, Option.pure_def, Option.some.injEq, wrapped,
      if_true] at hw
    obtain ⟨c, hc, rfl⟩ := hw
    simp only [follows, Option.map_eq_some_iff] at hF
    obtain ⟨e, he, rfl⟩ := hF
    have := followTy_token hn hh hsc (ty := t) ht hq hc he
    simp only [fwdPath, vectorPath, followTy, resolve_butte hh hsc, if_true, this, Option.map_some]
    rw [if_neg (by decide)]
    rfl
  | .table q, w, F, ht, hq, hw, hF => by
    simp only [typeToken, Option.bind_eq_bind, Option.bind_eq_some_iff, Option.pure_def, Option.some.injEq, wrapped,
      if_true, pathTokens] at hw
    obtain ⟨p, hp, rfl⟩ := hw
    split at hp
    · cases hp
    simp only [Option.some.injEq] at hp
    subst hp
    simp only [follows, Option.some.injEq] at hF
    subst hF
    have hl : Leads P sc ns q := hq q (by simp [Gen.tyPaths])
    unfold Leads at hl
    obtain ⟨h1, h2⟩ := ht
    have h8 : resolve P sc [c!"u8"] = some (.prim .u8) := resolve_prim hh hsc .u8
    simp only [fwdPath, followTy, resolve_butte hh hsc, if_true, hl, h1, tableStruct, bytesTy, h8, h2, and_self,
      Option.map_some]
  | .struct .., w, F, ht, _, _, _ => ht.elim
  | .enum q vs b, w, F, ht, hq, hw, hF => by
    simp only [typeToken, Option.bind_eq_bind, Option.bind_eq_some_iff, Option.pure_def, Option.some.injEq, pathTokens] at hw
    obtain ⟨p, hp, rfl⟩ := hw
    split at hp
    · cases hp
    simp only [Option.some.injEq] at hp
    subst hp
    simp only [follows, Option.map_eq_some_iff] at hF
    obtain ⟨xs, hx, rfl⟩ := hF
    obtain ⟨vl, hv, hpl⟩ := ht
    have hl : Leads P sc ns q := hq q (by simp [Gen.tyPaths])
    unfold Leads at hl
    have hmem : (⟨modOf q, .type, QIdent.simple q⟩ : Gen.Item) ∈ P.names :=
      hpl.mem_names ⟨.enum (QIdent.simple q) (baseName b) vl, by simp [enumItems], rfl⟩
    have hi : implements P (modOf q) (QIdent.simple q) c!"Follow" = true := by
      refine implements_of hh (.inl rfl) (cs := []) (fs := [enumFollowFn (baseName b)]) ?_
      · rw [enum_impls hpl hn (Plain.of_reserved (hh.plain hmem)).prim ⟨_, rfl⟩]
        simp [followPath]
    simp only [followTy, hl, enumOf_placed hn hv hpl hx, hi, if_true]
  | .union .., w, F, ht, _, _, hF => by simp [follows] at hF

end Butte.Rs
