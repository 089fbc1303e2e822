import Verif.Src.CheckAccess
import Verif.Rs.TypedProgram
/-
The generated files keep the type rules.
-/
namespace Butte.Src.Check
open Ir (QIdent Node Ident itemsOf All₂)
open Rs (Program Setting modOf DefinedTy Scope Acceptable)

section
variable [FloatText] {gm : Mode} {E : List Ast.Element} {out : List Node} {P : Program} {zs : List Item}

omit [FloatText] in
theorem variantLit_idents {b : Str} {ws : List (Ir.EnumVariant × Nat)} {vs : List (Str × Rs.Lit × Ast.Comment)}
    (h : ws.mapM (Full.variantLit b) = some vs) : vs.map (·.1) = ws.map (·.1.ident) := by
  induction ws generalizing vs with
  | nil =>
    cases h
    rfl
  | cons w ws ih =>
    simp only [List.mapM_cons, Option.bind_eq_bind, Option.bind_eq_some_iff, Option.pure_def, Option.some.injEq] at h
    obtain ⟨y, hy, ys, hys, rfl⟩ := h
    simp only [Full.variantLit, Option.bind_eq_bind, Option.bind_eq_some_iff, Option.pure_def, Option.some.injEq] at hy
    obtain ⟨i, hi, rfl⟩ := hy
    obtain rfl := Gen.formatIdent_eq hi
    rw [List.map_cons, List.map_cons, ih hys]

omit [FloatText] in
theorem idents_zipIdx (vs : List Ir.EnumVariant) : (List.zipIdx vs).map (·.1.ident) = vs.map (·.ident) := by
  rw [show (fun x : Ir.EnumVariant × Nat => x.1.ident) = (fun v => v.ident) ∘ Prod.fst from rfl, ← List.map_map]
  simp

omit [FloatText] in
/-- The literals of an enum have its type. -/
theorem variantLit_ty {t : STy} {ws : List Ir.EnumVariant} {xs : List (SVal t)} {k : Nat} (hv : Gen.variantValues t k ws = some xs)
    {vs : List (Str × Rs.Lit × Ast.Comment)} (h : (List.zipIdx ws k).mapM (Full.variantLit (Rs.primName t)) = some vs) :
    ∀ x ∈ vs, litLTy x.2.1 = some (.prim t) := by
  induction ws generalizing k xs vs with
  | nil =>
    cases h
    simp
  | cons w ws ih =>
    rw [List.zipIdx_cons] at h
    simp only [List.mapM_cons, Option.bind_eq_bind, Option.bind_eq_some_iff, Option.pure_def, Option.some.injEq] at h
    obtain ⟨y, hy, ys, hys, rfl⟩ := h
    simp only [Gen.variantValues, Option.bind_eq_bind, Option.bind_eq_some_iff, Option.pure_def, Option.some.injEq] at hv
    obtain ⟨x, hx, zs, hzs, rfl⟩ := hv
    simp only [Full.variantLit, Option.bind_eq_bind, Option.bind_eq_some_iff, Option.pure_def, Option.some.injEq] at hy
    obtain ⟨i, hi, rfl⟩ := hy
    intro z hz
    rcases List.mem_cons.mp hz with rfl | hz
    · have : Rs.litTy (.int (w.value.getD k) (Rs.primName t)) = some (.prim t) :=
        Rs.litTy_of (v := x) (by simp [Rs.litValue, Rs.primOf_primName, Rs.litVal, hx])
      simp [litLTy, this]
    · exact ih hzs hys z hz

/-! ### Items -/

theorem fullEnum (X : Written gm E out P zs) {p : List Ident} {e : Ir.Enum} (hx : (p, Node.enum e) ∈ itemsOf out) :
    ∃ ys, Full.enum e = some ys := by
  obtain ⟨items, hi, -⟩ := Rs.emit_enum X.setting.emitted hx
  have := (enum_agree e).isSome
  rwa [hi, Option.isSome_some, Option.isSome_iff_exists] at this

theorem fullUnion (X : Written gm E out P zs) {p : List Ident} {u : Ir.Union} (hx : (p, Node.union u) ∈ itemsOf out) :
    ∃ ys, Full.union u = some ys := by
  obtain ⟨items, hi, -⟩ := Rs.emit_union X.setting.emitted hx
  have := (union_agree u).isSome
  rwa [hi, Option.isSome_some, Option.isSome_iff_exists] at this

theorem fullTable (X : Written gm E out P zs) {p : List Ident} {t : Ir.Table} (hx : (p, Node.table t) ∈ itemsOf out) :
    ∃ ys, Full.table gm t = some ys := by
  obtain ⟨items, hi, -⟩ := Rs.emit_table X.setting.emitted hx
  have := (table_agree gm t).isSome
  rwa [hi, Option.isSome_some, Option.isSome_iff_exists] at this

theorem placed (X : Written gm E out P zs) {x : List Ident × Node} (hx : x ∈ itemsOf out) {ys : List Item} (hys : Full.node gm x.2 = some ys)
    {y : Item} (hy : y ∈ ys) : (modOf x.2.ident, y) ∈ flatItems [] zs :=
  (flat_below X.nodes _).mpr ⟨_, hx, ys, hys, hy, (X.setting.path hx).symm⟩

theorem enumTypes (X : Written gm E out P zs) {p : List Ident} {e : Ir.Enum} (hx : (p, Node.enum e) ∈ itemsOf out)
    {vs : List (Str × Rs.Lit × Ast.Comment)} (hvs : (List.zipIdx e.variants).mapM (Full.variantLit (Rs.baseName e.base)) = some vs) :
    EnumTypes ⟨zs, P.forget⟩ (modOf e.ident) (QIdent.simple e.ident) (Gen.enumBaseSTy e.base) vs := by
  obtain ⟨ys, hys⟩ := fullEnum X hx
  have T := X.enumTraits hx
  have hd := fun {y n gs} => X.item hx (ys := ys) hys (y := y) (n := n) (gs := gs)
  have hf := fun {y} => placed X hx (ys := ys) hys (y := y)
  simp only [Full.enum, Option.bind_eq_bind, Option.bind_eq_some_iff, Option.pure_def, Option.some.injEq] at hys
  obtain ⟨n, hn, vs', hvs', rfl⟩ := hys
  obtain rfl := Gen.formatIdent_eq hn
  rw [hvs] at hvs'
  cases hvs'
  exact ⟨X.hygienic, T.own, ⟨_, hd List.mem_cons_self rfl⟩, hf (by simp), hf (by simp [Rs.baseName]), hf (by simp [Rs.baseName]), hf (by simp [Rs.baseName]),
    hf (by simp [Rs.baseName])⟩

theorem tableTypes (X : Written gm E out P zs) {p : List Ident} {t : Ir.Table} (hx : (p, Node.table t) ∈ itemsOf out) :
    TableTypes ⟨zs, P.forget⟩ (modOf t.ident) (QIdent.simple t.ident) (QIdent.namespace t.ident) t.fields ∧
      (modOf t.ident, Full.tableFollow (QIdent.simple t.ident)) ∈ flatItems [] zs := by
  obtain ⟨ys, hys⟩ := fullTable X hx
  have hd := fun {y n gs} => X.item hx (ys := ys) hys (y := y) (n := n) (gs := gs)
  have hf := fun {y} => placed X hx (ys := ys) hys (y := y)
  simp only [Full.table, Option.bind_eq_bind, Option.bind_eq_some_iff, Option.pure_def, Option.some.injEq] at hys
  obtain ⟨n, hn, _, -, args, -, dflt, -, adds, -, consts, -, accs, -, rfl⟩ := hys
  obtain rfl := Gen.formatIdent_eq hn
  exact ⟨⟨X.tableTraits hx, ⟨_, X.itemTable hx⟩, hd (y := Full.builderStruct (QIdent.simple t.ident)) (by simp) rfl⟩, hf (by simp)⟩

/-! ### Types -/

theorem okPath (X : Written gm E out P zs) {x : List Ident × Node} (hx : x ∈ itemsOf out) {sc : Scope} (hsc : sc.Ok)
    (hm : sc.module = modOf x.2.ident) {q : QIdent} (hq : q ∈ Gen.paths x.2) {k : Nat × Nat} (hk : File.kind ⟨zs, P.forget⟩ (defOf q) = some k) :
    OkPath ⟨zs, P.forget⟩ sc (QIdent.namespace x.2.ident) q k := by
  have hl := (X.setting.leads x hx q hq).2
  rw [X.setting.path hx, ← hm] at hl
  obtain ⟨h1, h2⟩ := X.lookup_resolve hsc hl
  exact ⟨h1, h2, hk⟩

theorem kindTable (X : Written gm E out P zs) {p : List Ident} {t : Ir.Table} (hx : (p, Node.table t) ∈ itemsOf out) :
    File.kind ⟨zs, P.forget⟩ (defOf t.ident) = some (0, 1) := (tableTypes X hx).1.kind

theorem kindEnum (X : Written gm E out P zs) {p : List Ident} {e : Ir.Enum} (hx : (p, Node.enum e) ∈ itemsOf out) :
    File.kind ⟨zs, P.forget⟩ (defOf e.ident) = some (0, 0) := by
  obtain ⟨b, vs, hi⟩ := X.itemEnum hx
  simp only [File.kind, defOf, hi]
  rfl

theorem kindUnion (X : Written gm E out P zs) {p : List Ident} {u : Ir.Union} (hx : (p, Node.union u) ∈ itemsOf out) :
    File.kind ⟨zs, P.forget⟩ (defOf u.ident) = some (1, 0) := by
  obtain ⟨vs, hi⟩ := X.itemUnion hx
  simp only [File.kind, defOf, hi]
  rfl

theorem okTy (X : Written gm E out P zs) {x : List Ident × Node} (hx : x ∈ itemsOf out) {sc : Scope} (hsc : sc.Ok)
    (hm : sc.module = modOf x.2.ident) : ∀ {ty : Ir.Ty}, DefinedTy out ty → (∀ q ∈ Gen.tyPaths ty, q ∈ Gen.paths x.2) →
      OkTy ⟨zs, P.forget⟩ sc (QIdent.namespace x.2.ident) ty
  | .builtin _, _, _ | .string, _, _ => trivial
  | .array t, h, hp => okTy X hx hsc hm (ty := t) h hp
  | .struct q fs, h, hp => (X.setting.hasTy (ty := .struct q fs) h).elim
  | .table q, h, hp => by
    refine okPath X hx hsc hm (hp q (by simp [Gen.tyPaths])) ?_
    obtain ⟨⟨p', y⟩, hy, hyd⟩ := h
    cases y <;> simp only [Node.defines, Option.some.injEq, Prod.mk.injEq, reduceCtorEq, and_false] at hyd
    obtain ⟨rfl, -⟩ := hyd
    exact kindTable X hy
  | .enum q vs b, h, hp => by
    refine okPath X hx hsc hm (hp q (by simp [Gen.tyPaths])) ?_
    obtain ⟨⟨p', y⟩, hy, hyd⟩ := h
    cases y <;> simp only [Node.defines, Option.some.injEq, Prod.mk.injEq, reduceCtorEq, and_false, Ir.CustomType.enum.injEq] at hyd
    obtain ⟨rfl, -⟩ := hyd
    exact kindEnum X hy
  | .union q e vs, h, hp => by
    refine okPath X hx hsc hm (hp q (by simp [Gen.tyPaths])) ?_
    obtain ⟨⟨p', y⟩, hy, hyd⟩ := h
    cases y <;> simp only [Node.defines, Option.some.injEq, Prod.mk.injEq, reduceCtorEq, and_false, Ir.CustomType.union.injEq] at hyd
    obtain ⟨rfl, -⟩ := hyd
    exact kindUnion X hy

theorem unionTypes (X : Written gm E out P zs) {p : List Ident} {u : Ir.Union} (hx : (p, Node.union u) ∈ itemsOf out) {vs : List Variant}
    (hvs : u.variants.mapM (Full.unionVariant (QIdent.namespace u.ident)) = some vs) :
    UnionTypes ⟨zs, P.forget⟩ (modOf u.ident) (QIdent.simple u.ident) (QIdent.namespace u.ident) u.variants vs := by
  obtain ⟨items, hit, hp⟩ := Rs.emit_union X.setting.emitted hx
  rw [X.setting.path hx] at hp
  simp only [Rs.emitUnion, Option.bind_eq_bind, Option.bind_eq_some_iff, Option.pure_def, Option.some.injEq] at hit
  obtain ⟨n, hn, e, -, vs', -, rfl⟩ := hit
  obtain rfl := Gen.formatIdent_eq hn
  obtain ⟨ys, hys⟩ := fullUnion X hx
  have hd := fun {y n gs} => X.item hx (ys := ys) hys (y := y) (n := n) (gs := gs)
  simp only [Full.union, Option.bind_eq_bind, Option.bind_eq_some_iff, Option.pure_def, Option.some.injEq] at hys
  obtain ⟨n, hn, e, -, vs', hvs', rfl⟩ := hys
  obtain rfl := Gen.formatIdent_eq hn
  rw [hvs] at hvs'
  cases hvs'
  refine ⟨X.hygienic, fun s => ?_, ⟨_, hd List.mem_cons_self rfl⟩, hvs, fun v hv s => ?_⟩
  · exact X.ownName (sc := ⟨modOf u.ident, [], s⟩) (.inl rfl) (hp.mem_names ⟨_, List.mem_cons_self, rfl⟩)
  · exact okTy X hx (sc := ⟨modOf u.ident, [], s⟩) (.inl rfl) rfl ((Rs.union_defined X.setting.translates hx).2.1 v hv) fun q hq =>
      List.mem_cons_of_mem _ (List.mem_flatMap.mpr ⟨v, hv, hq⟩)

theorem goodTy (X : Written gm E out P zs) : ∀ {ty : Ir.Ty}, DefinedTy out ty → Good ⟨zs, P.forget⟩ ty
  | .builtin _, _ | .string, _ => trivial
  | .array t, h => goodTy X (ty := t) h
  | .struct q fs, h => (X.setting.hasTy (ty := .struct q fs) h).elim
  | .table q, h => by
    obtain ⟨⟨p', y⟩, hy, hyd⟩ := h
    cases y <;> simp only [Node.defines, Option.some.injEq, Prod.mk.injEq, reduceCtorEq, and_false] at hyd
    obtain ⟨rfl, -⟩ := hyd
    exact ⟨⟨_, _, (tableTypes X hy).1⟩, (tableTypes X hy).2⟩
  | .enum q vs b, h => by
    obtain ⟨⟨p', y⟩, hy, hyd⟩ := h
    cases y <;> simp only [Node.defines, Option.some.injEq, Prod.mk.injEq, reduceCtorEq, and_false, Ir.CustomType.enum.injEq] at hyd
    obtain ⟨rfl, rfl, rfl⟩ := hyd
    obtain ⟨ys, hys⟩ := fullEnum X hy
    simp only [Full.enum, Option.bind_eq_bind, Option.bind_eq_some_iff, Option.pure_def, Option.some.injEq] at hys
    obtain ⟨n, hn, vs, hvs, rfl⟩ := hys
    exact ⟨vs, enumTypes X hy hvs, by rw [variantLit_idents hvs, idents_zipIdx]⟩
  | .union q e vs, h => by
    obtain ⟨⟨p', y⟩, hy, hyd⟩ := h
    cases y <;> simp only [Node.defines, Option.some.injEq, Prod.mk.injEq, reduceCtorEq, and_false, Ir.CustomType.union.injEq] at hyd
    obtain ⟨rfl, rfl, rfl⟩ := hyd
    obtain ⟨ys, hys⟩ := fullUnion X hy
    simp only [Full.union, Option.bind_eq_bind, Option.bind_eq_some_iff, Option.pure_def, Option.some.injEq] at hys
    obtain ⟨n, hn, e, -, vs, hvs, rfl⟩ := hys
    exact ⟨vs, unionTypes X hy hvs⟩

/-! ### Tables -/

theorem tableCk (X : Written gm E out P zs) (A : Acceptable gm out P) {p : List Ident} {t : Ir.Table} (hx : (p, Node.table t) ∈ itemsOf out)
    {args : List Field} {adds accs : List Fn} {consts : List ImplItem} {dflt : List Item}
    (h1 : t.fields.mapM (Full.argField (QIdent.namespace t.ident)) = some args)
    (h2 : t.fields.mapM (Full.addMethod (QIdent.simple t.ident) (QIdent.namespace t.ident)) = some adds)
    (h3 : (List.zipIdx t.fields).mapM (fun x => Full.slotConst gm x.2 x.1) = some consts)
    (h4 : t.fields.mapM (Full.accessor (QIdent.simple t.ident) (QIdent.namespace t.ident)) = some accs)
    (hys : Full.table gm t = some ([Full.tableStruct (QIdent.simple t.ident) t.doc, Full.tableFrom (QIdent.simple t.ident), Full.tableInto (QIdent.simple t.ident),
      Full.tableCreate (QIdent.simple t.ident) consts t.fields, Full.tableAccess (QIdent.simple t.ident) accs, Full.tableFollow (QIdent.simple t.ident),
      Full.tableFollowBuf (QIdent.simple t.ident), Full.argsStruct (QIdent.simple t.ident) t.fields args] ++ dflt ++
        [Full.builderStruct (QIdent.simple t.ident), Full.builderImpl (QIdent.simple t.ident) adds t.fields])) :
    TableCk ⟨zs, P.forget⟩ (modOf t.ident) (QIdent.simple t.ident) (QIdent.namespace t.ident) t.fields args adds accs consts := by
  obtain ⟨gs, hc⟩ := A.tables p t hx
  have C := Rs.Compiled.of hc
  have hd := fun {y n gs} => X.item hx (ys := _) hys (y := y) (n := n) (gs := gs)
  have hf := fun {y} => placed X hx (ys := _) hys (y := y)
  have hD := (Rs.table_defined X.setting.translates hx).2
  refine { (tableTypes X hx).1 with
    argsItem := hd (y := Full.argsStruct (QIdent.simple t.ident) t.fields args) (by simp) rfl
    argsFields := ?_
    addFns := h2
    accFns := h4
    constIn := ?_
    constOut := ?_
    createAt := hf (by simp)
    accessAt := hf (by simp)
    builderAt := hf (by simp)
    good := fun f hf => goodTy X (hD f hf)
    okTy := fun f hf sc hsc hm => okTy X hx hsc hm (hD f hf) fun q hq => List.mem_flatMap.mpr ⟨f, hf, List.mem_append_left _ hq⟩
    kinds := ?_
    ids := C.ids
    notSelf := ?_ }
  · clear hys hd hf
    generalize t.fields = fs at h1
    induction fs generalizing args with
    | nil =>
      cases h1
      exact .nil
    | cons f fs ih =>
      simp only [List.mapM_cons, Option.bind_eq_bind, Option.bind_eq_some_iff, Option.pure_def, Option.some.injEq] at h1
      obtain ⟨a, ha, as, has, rfl⟩ := h1
      simp only [Full.argField, Option.bind_eq_bind, Option.bind_eq_some_iff, Option.pure_def, Option.some.injEq] at ha
      obtain ⟨t', ht', doc, -, rfl⟩ := ha
      exact .cons ⟨rfl, t', ht', rfl⟩ (ih has)
  · intro f hf
    obtain ⟨i, hi⟩ := List.mem_iff_getElem?.mp hf
    obtain ⟨c, hc, hcf⟩ := mapM_image h3 (f, i) (by rw [List.mem_zipIdx_iff_getElem?]; exact hi)
    simp only [Full.slotConst, Option.bind_eq_bind, Option.bind_eq_some_iff, Option.pure_def, Option.some.injEq] at hcf
    obtain ⟨s, hs, rfl⟩ := hcf
    exact ⟨_, hc⟩
  · intro c hc
    obtain ⟨x, hx, hcx⟩ := mapM_source h3 c hc
    simp only [Full.slotConst, Option.bind_eq_bind, Option.bind_eq_some_iff, Option.pure_def, Option.some.injEq] at hcx
    obtain ⟨s, hs, rfl⟩ := hcx
    exact ⟨_, s, rfl⟩
  · intro f hf
    obtain ⟨i, hi⟩ := List.mem_iff_getElem?.mp hf
    obtain ⟨g, -, -, -, -, hk⟩ := C.fields i f hi
    exact ⟨_, hk⟩
  · intro f hf he
    have := C.usable f hf
    rw [he] at this
    exact absurd this (by decide)

theorem unionCk (X : Written gm E out P zs) (A : Acceptable gm out P) {p : List Ident} {t : Ir.Table} (hx : (p, Node.table t) ∈ itemsOf out)
    {f : Ir.Field} (hf : f ∈ t.fields) {q en : QIdent} {us : List Ir.UnionVariant} (hty : f.ty = .union q en us) :
    UnionCk ⟨zs, P.forget⟩ (modOf t.ident) (QIdent.namespace t.ident) t.fields f q en us := by
  obtain ⟨gs, hc⟩ := A.tables p t hx
  have C := Rs.Compiled.of hc
  have hD := (Rs.table_defined X.setting.translates hx).2 f hf
  rw [hty] at hD
  obtain ⟨⟨p', y⟩, hy, hyd⟩ := hD
  cases y <;> simp only [Node.defines, Option.some.injEq, Prod.mk.injEq, reduceCtorEq, and_false, Ir.CustomType.union.injEq] at hyd
  rename_i u
  obtain ⟨rfl, rfl, rfl⟩ := hyd
  obtain ⟨-, hU1, hU2⟩ := Rs.union_defined X.setting.translates hy
  have hps : ∀ z ∈ u.ident :: u.enumIdent :: u.variants.flatMap (fun v => Gen.tyPaths v.ty), z ∈ Gen.paths (.table t) := by
    intro z hz
    refine List.mem_flatMap.mpr ⟨f, hf, List.mem_append_right _ ?_⟩
    rw [hty]
    exact hz
  refine ⟨fun sc hsc hm => okPath X hx hsc hm (hps _ (by simp)) ?_, fun v hv => ⟨goodTy X (hU1 v hv), ?_, fun sc hsc hm => ?_⟩, ?_⟩
  · obtain ⟨⟨p'', y⟩, hy', hyd⟩ := hU2
    cases y <;> simp only [Node.defines, Option.some.injEq, Prod.mk.injEq, reduceCtorEq, and_false, Ir.CustomType.enum.injEq] at hyd
    obtain ⟨hq, -⟩ := hyd
    rw [← hq]
    exact kindEnum X hy'
  · obtain ⟨m1, m2, m3⟩ := union_members X.setting.translates hy v hv
    have m4 := A.flat p' u hy v hv
    have m5 := hU1 v hv
    cases hv : v.ty with
    | builtin b => exact absurd hv (m3 b)
    | string => exact absurd hv m1
    | array s => exact absurd hv (m2 s)
    | table q => rfl
    | struct q fs =>
      rw [hv] at m5
      exact (X.setting.hasTy (ty := .struct q fs) m5).elim
    | enum q vs b =>
      rw [hv] at m5
      obtain ⟨⟨p'', y⟩, hy', hyd⟩ := m5
      cases y <;> simp only [Node.defines, Option.some.injEq, Prod.mk.injEq, reduceCtorEq, and_false, Ir.CustomType.enum.injEq] at hyd
      obtain ⟨rfl, rfl, rfl⟩ := hyd
      obtain ⟨xs, hxs⟩ := A.values _ _ hy'
      simp [Gen.followTy, hxs]
    | union q e vs => exact absurd hv (m4 _ _ _)
  · exact okTy X hx hsc hm (hU1 v hv) fun z hz => hps z (List.mem_cons_of_mem _ (List.mem_cons_of_mem _ (List.mem_flatMap.mpr ⟨v, hv, hz⟩)))
  · have := C.tags f hf
    unfold Gen.unionTagOk at this
    rw [hty] at this
    simp only [List.any_eq_true, Bool.and_eq_true, beq_iff_eq] at this
    obtain ⟨g, hg, ⟨hgn, hgr⟩, hgt⟩ := this
    refine ⟨g, hg, hgn, hgr, ?_⟩
    split at hgt
    · rename_i i vs b hgty
      simp only [Bool.and_eq_true, beq_iff_eq] at hgt
      obtain ⟨rfl, hvs⟩ := hgt
      exact ⟨vs, b, hgty, hvs⟩
    · cases hgt

theorem table_checks (X : Written gm E out P zs) (A : Acceptable gm out P) {p : List Ident} {t : Ir.Table} (hx : (p, Node.table t) ∈ itemsOf out)
    {ys : List Item} (hys : Full.table gm t = some ys) : ∀ y ∈ ys, ItemChecks ⟨zs, P.forget⟩ (modOf t.ident) y := by
  have hys' := hys
  simp only [Full.table, Option.bind_eq_bind, Option.bind_eq_some_iff, Option.pure_def, Option.some.injEq] at hys'
  obtain ⟨n, hn, _, -, args, ha, dflt, hdf, adds, hadd, consts, hcs, accs, hacc, rfl⟩ := hys'
  obtain rfl := Gen.formatIdent_eq hn
  have T := tableCk X A hx ha hadd hcs hacc hys
  intro y hy
  simp only [List.mem_append, List.mem_cons, List.not_mem_nil, or_false] at hy
  rcases hy with ((rfl | rfl | rfl | rfl | rfl | rfl | rfl | rfl) | hy) | rfl | rfl
  · exact tableStruct_checks T.toTableTypes _
  · exact tableFrom_checks T.toTableTypes
  · exact tableInto_checks T.toTableTypes
  · exact T.tableCreate_checks
  · exact T.tableAccess_checks fun f hf q en us hty => unionCk X A hx hf hty
  · exact tableFollow_checks T.toTableTypes
  · exact tableFollowBuf_checks T.toTableTypes
  · exact T.argsStruct_checks
  · unfold Full.defaultItems at hdf
    split at hdf
    · rename_i hcd
      simp only [Option.map_eq_some_iff] at hdf
      obtain ⟨ds, hds, rfl⟩ := hdf
      rw [List.mem_singleton] at hy
      subst hy
      exact T.argsDefault_checks (A.defaults p t hx hcd) hcd hds
    · cases hdf
      cases hy
  · exact builderStruct_checks T.toTableTypes
  · exact T.builderImpl_checks

/-- Everything that is generated keeps the type rules. -/
theorem file_checks (X : Written gm E out P zs) (A : Acceptable gm out P) : FileChecks ⟨zs, P.forget⟩ := by
  rintro ⟨m, i⟩ hz
  obtain ⟨⟨p, x⟩, hx, ys, hys, hi, hm⟩ := (flat_below X.nodes _).mp hz
  simp only at hi hm
  rw [X.setting.path hx] at hm
  subst hm
  cases x with
  | table t => exact table_checks X A hx hys i hi
  | «enum» e =>
    refine enum_checks hys (fun vs hvs => ?_) i hi
    obtain ⟨xs, hxs⟩ := A.values p e hx
    have hids : vs.map (·.1) = e.variants.map (·.ident) := by rw [variantLit_idents hvs, idents_zipIdx]
    obtain ⟨h1, -, h2, -⟩ := Rs.enumValues_some hxs
    refine ⟨enumTypes X hx hvs, ?_, ?_, ?_, variantLit_ty h1 hvs⟩
    · rintro rfl
      exact h2 (List.map_eq_nil_iff.mp hids.symm)
    · rw [hids]
      intro h
      obtain ⟨v, hv, he⟩ := List.mem_map.mp h
      exact (A.variants p e hx v hv).2.1 he
    · rw [hids]
      intro h
      obtain ⟨v, hv, he⟩ := List.mem_map.mp h
      exact (A.variants p e hx v hv).2.2 he
  | union u =>
    have hU := (Rs.union_defined X.setting.translates hx).2.2
    have G := goodTy X hU
    obtain ⟨ls, G, hls⟩ := G
    refine union_checks hys (fun vs hvs => unionTypes X hx hvs) (fun s => ?_) (fun v hv => ?_) i hi
    · refine okPath X hx (sc := ⟨modOf u.ident, [], s⟩) (.inl rfl) rfl List.mem_cons_self ?_
      exact G.kind
    · have : v.ident ∈ ls.map (·.1) := by
        rw [hls]
        simp only [List.map_cons, List.map_map, List.mem_cons, List.mem_map, Function.comp_apply]
        exact .inr ⟨v, hv, rfl⟩
      obtain ⟨x, hx, he⟩ := List.mem_map.mp this
      rw [← he]
      exact G.unit hx
  | struct s => cases hys
  | rpc r => cases hys; cases hi
  | «namespace» i' ns => exact absurd (leavesL_isItem [] out _ hx) (by simp [Ir.Node.isItem])

end

end Butte.Src.Check
