import Verif.Src.Api
import Verif.Src.OwnAll
/-
What the generated files offer.
-/
namespace Butte.Src
open Ir (QIdent Node Ident itemsOf)
open Rs (Program Setting modOf)

theorem docs_append (as bs : List Attr) : docs (as ++ bs) = docs as ++ docs bs := by simp [docs]

theorem docs_comment (doc : Ast.Comment) : docs (Full.comment doc) = doc := by
  simp only [docs, Full.comment, List.filterMap_map]
  induction doc with
  | nil => rfl
  | cons l ls ih => simp [Full.docAttr, ih]

theorem docs_derive (ds : List Str) (as : List Attr) : docs (Full.deriveAttr ds :: as) = docs as := by simp [docs, Full.deriveAttr]

theorem docs_inline (as : List Attr) : docs (Full.inlineAttr :: as) = docs as := by simp [docs, Full.inlineAttr]

theorem docs_allow (ty : Ir.Ty) : docs (Full.allowAttr ty) = [] := by
  unfold Full.allowAttr
  split <;> simp [docs]

theorem modsPub_append : ∀ {as bs : List Item}, modsPub as → modsPub bs → modsPub (as ++ bs)
  | [], _, _, h => h
  | _ :: _, _, h, h' => ⟨h.1, modsPub_append h.2 h'⟩

theorem modsPub_of : ∀ {as : List Item}, (∀ a ∈ as, a.modsPub) → modsPub as
  | [], _ => trivial
  | _ :: _, h => ⟨h _ (by simp), modsPub_of fun a ha => h a (by simp [ha])⟩

section
variable [FloatText]

mutual
theorem node_modsPub (gm : Mode) : ∀ (n : Node) (zs : List Item), Full.node gm n = some zs → modsPub zs
  | .table t, zs, h => by
    simp only [Full.node, Full.table, Option.bind_eq_bind, Option.bind_eq_some_iff, Option.pure_def, Option.some.injEq] at h
    obtain ⟨n, hn, _, -, args, ha, dflt, hd, adds, hadd, consts, hc, accs, hacc, rfl⟩ := h
    refine modsPub_append (modsPub_append ?_ ?_) ⟨trivial, trivial, trivial⟩
    · exact ⟨trivial, trivial, trivial, trivial, trivial, trivial, trivial, trivial, trivial⟩
    · unfold Full.defaultItems at hd
      split at hd
      · rw [Option.map_eq_some_iff] at hd
        obtain ⟨ds, hds, rfl⟩ := hd
        exact ⟨trivial, trivial⟩
      · cases hd
        trivial
  | .struct _, zs, h => by cases h
  | .enum e, zs, h => by
    simp only [Full.node, Full.enum, Option.bind_eq_bind, Option.bind_eq_some_iff, Option.pure_def, Option.some.injEq] at h
    obtain ⟨n, hn, vs, -, rfl⟩ := h
    exact ⟨trivial, trivial, trivial, trivial, trivial, trivial, trivial, trivial⟩
  | .union u, zs, h => by
    simp only [Full.node, Full.union, Option.bind_eq_bind, Option.bind_eq_some_iff, Option.pure_def, Option.some.injEq] at h
    obtain ⟨n, hn, e, -, vs, hvs, rfl⟩ := h
    exact ⟨trivial, trivial, trivial⟩
  | .rpc _, zs, h => by cases h; trivial
  | .namespace i ns, zs, h => by
    simp only [Full.node, Option.bind_eq_bind, Option.bind_eq_some_iff, Option.pure_def, Option.some.injEq] at h
    obtain ⟨m, -, items, hi, rfl⟩ := h
    exact ⟨⟨rfl, nodes_modsPub gm ns items hi⟩, trivial⟩
theorem nodes_modsPub (gm : Mode) : ∀ (ns : List Node) (zs : List Item), Full.nodes gm ns = some zs → modsPub zs
  | [], zs, h => by cases h; trivial
  | n :: ns, zs, h => by
    simp only [Full.nodes, Option.bind_eq_bind, Option.bind_eq_some_iff, Option.pure_def, Option.some.injEq] at h
    obtain ⟨a, ha, b, hb, rfl⟩ := h
    exact modsPub_append (node_modsPub gm n a ha) (nodes_modsPub gm ns b hb)
end

omit [FloatText] in
theorem accessor_api {n : Str} {ns : Option QIdent} {f : Ir.Field} {a : Fn} (h : Full.accessor n ns f = some a) :
    a.pub = true ∧ a.params.map Param.pass = [.selfRef] ∧ docs a.attrs = if f.ty.isUnion then [] else f.doc := by
  simp only [Full.accessor, Option.bind_eq_bind, Option.bind_eq_some_iff, Option.pure_def, Option.some.injEq] at h
  obtain ⟨snake, hs, ret, hret, w, hw, d, hd, h⟩ := h
  split at h
  · rename_i hty
    simp only [Option.bind_eq_some_iff, Option.some.injEq] at h
    obtain ⟨b, hb, rfl⟩ := h
    exact ⟨rfl, rfl, by simp [hty, Ir.Ty.isUnion, Full.accessorFn, docs, Full.inlineAttr]⟩
  · rename_i hne
    cases h
    refine ⟨rfl, rfl, ?_⟩
    rw [if_neg]
    · simp [Full.accessorFn, docs_append, docs_comment, docs_inline, docs_allow]
    · cases hty : f.ty <;> simp [Ir.Ty.isUnion]
      exact hne _ _ _ hty

variable {gm : Mode} {E : List Ast.Element} {out : List Node} {P : Program} {zs : List Item}

omit [FloatText] in
theorem argFields_api [FloatText] {ns : Option QIdent} : ∀ {fs : List Ir.Field} {args : List Field}, fs.mapM (Full.argField ns) = some args →
    args.map (fun f => (f.name, f.pub)) = fs.map fun f => (f.ident, true)
  | [], args, h => by cases h; rfl
  | f :: fs, args, h => by
    simp only [List.mapM_cons, Option.bind_eq_bind, Option.bind_eq_some_iff, Option.pure_def, Option.some.injEq] at h
    obtain ⟨a, ha, as, has, rfl⟩ := h
    simp only [Full.argField, Option.bind_eq_bind, Option.bind_eq_some_iff, Option.pure_def, Option.some.injEq] at ha
    obtain ⟨t', ht', doc, -, rfl⟩ := ha
    simp [argFields_api has]

namespace Written

/-- The functions of a builder that are public. -/
theorem builder_offers (X : Written gm E out P zs) {t : Ir.Table}
    (hb : File.item ⟨zs, P.forget⟩ (modOf t.ident) (QIdent.simple t.ident ++ c!"Builder") =
      some (Full.builderStruct (QIdent.simple t.ident))) {f : Fn}
    (hf : Offers ⟨zs, P.forget⟩ (modOf t.ident) (QIdent.simple t.ident ++ c!"Builder") f) :
    f.name = c!"new" ∨ f.name = c!"finish" := by
  obtain ⟨hpub, gs, s, bs, is, hz, hd, hf⟩ := hf
  obtain ⟨⟨p', x⟩, hx', ys, hys, hi, hm⟩ := (flat_below X.nodes _).mp hz
  simp only at hi hm
  rw [X.setting.path hx'] at hm
  have notTable : ∀ {doc n}, File.item ⟨zs, P.forget⟩ (modOf t.ident) (QIdent.simple t.ident ++ c!"Builder") ≠
      some (Full.tableStruct n doc) := by
    intro doc n h
    rw [hb] at h
    simp [Full.builderStruct, Full.tableStruct] at h
  cases x with
  | table t' =>
    have T := X.tableTraits hx'
    have hit := X.itemTable hx'
    change modOf t.ident = modOf t'.ident at hm
    simp only [Full.node, Full.table, Option.bind_eq_bind, Option.bind_eq_some_iff, Option.pure_def, Option.some.injEq] at hys
    obtain ⟨n, hn, _, -, args, ha, dflt, hdf, adds, hadd, consts, hc, accs, hacc, rfl⟩ := hys
    obtain rfl := Gen.formatIdent_eq hn
    rw [hm] at hd notTable
    simp only [List.cons_append, List.nil_append, List.mem_cons, List.mem_append, List.not_mem_nil, or_false] at hi
    rcases hi with hi | hi | hi | hi | hi | hi | hi | hi | hi | hi | hi
    · cases hi
    · cases hi
    · cases hi
    · cases hi
      have := (T.ownAt [] (.inl rfl) none).symm.trans hd
      simp only [Option.some.injEq, Rs.Def.item.injEq, true_and] at this
      rw [this] at hit
      exact absurd hit notTable
    · cases hi
      have := (T.ownAt [c!"B"] (.inr rfl) none).symm.trans hd
      simp only [Option.some.injEq, Rs.Def.item.injEq, true_and] at this
      rw [this] at hit
      exact absurd hit notTable
    · cases hi
    · cases hi
    · cases hi
    · unfold Full.defaultItems at hdf
      split at hdf
      · rw [Option.map_eq_some_iff] at hdf
        obtain ⟨ds, hds, rfl⟩ := hdf
        cases List.mem_singleton.mp hi
      · cases hdf; cases hi
    · cases hi
    · cases hi
      rw [implFns_append, implFns_fns] at hf
      rcases List.mem_append.mp hf with hf | hf
      · obtain ⟨x, hx, he⟩ := mapM_source hadd f hf
        simp only [Full.addMethod, Option.bind_eq_bind, Option.bind_eq_some_iff, Option.pure_def, Option.some.injEq] at he
        obtain ⟨t, ht, b, hb, rfl⟩ := he
        cases hpub
      · simp only [implFns, List.mem_cons, List.not_mem_nil, or_false] at hf
        rcases hf with rfl | rfl
        · exact .inl rfl
        · exact .inr rfl
  | «enum» e =>
    simp only [Full.node, Full.enum, Option.bind_eq_bind, Option.bind_eq_some_iff, Option.pure_def, Option.some.injEq] at hys
    obtain ⟨n, hn, vs, -, rfl⟩ := hys
    simp only [List.mem_cons, List.not_mem_nil, or_false] at hi
    rcases hi with hi | hi | hi | hi | hi | hi | hi <;> cases hi
  | union u =>
    obtain ⟨vs', hit⟩ := X.itemUnion hx'
    change modOf t.ident = modOf u.ident at hm
    obtain ⟨items, hem, hp⟩ := Rs.emit_union X.setting.emitted hx'
    rw [X.setting.path hx'] at hp
    simp only [Rs.emitUnion, Option.bind_eq_bind, Option.bind_eq_some_iff, Option.pure_def, Option.some.injEq] at hem
    obtain ⟨n, hn, e, -, vs, -, rfl⟩ := hem
    obtain rfl := Gen.formatIdent_eq hn
    have own := X.ownName (sc := ⟨modOf u.ident, [], none⟩) (.inl rfl) (hp.mem_names ⟨_, List.mem_cons_self, rfl⟩)
    simp only [Full.node, Full.union, Option.bind_eq_bind, Option.bind_eq_some_iff, Option.pure_def, Option.some.injEq] at hys
    obtain ⟨n, hn, e, -, vs, hvs, rfl⟩ := hys
    obtain rfl := Gen.formatIdent_eq hn
    rw [hm] at hd hb
    simp only [List.mem_cons, List.not_mem_nil, or_false] at hi
    rcases hi with hi | hi
    · cases hi
    · cases hi
      have := own.symm.trans hd
      simp only [Option.some.injEq, Rs.Def.item.injEq, true_and] at this
      rw [this, hb] at hit
      cases hit
  | struct s => cases hys
  | rpc r => cases hys; cases hi
  | «namespace» i' ns => exact absurd (leavesL_isItem [] out _ hx') (by simp [Ir.Node.isItem])

theorem tableApi (X : Written gm E out P zs) {p : List Ident} {t : Ir.Table} (hx : (p, Node.table t) ∈ itemsOf out) :
    TableApi ⟨zs, P.forget⟩ t := by
  obtain ⟨items, hi, -⟩ := Rs.emit_table X.setting.emitted hx
  have := (table_agree gm t).isSome
  rw [hi, Option.isSome_some, Option.isSome_iff_exists] at this
  obtain ⟨ys, hys⟩ := this
  have T := X.tableTraits hx
  have hd := fun {y n gs} => X.item hx (ys := ys) hys (y := y) (n := n) (gs := gs)
  have hf : ∀ y ∈ ys, (modOf t.ident, y) ∈ flatItems [] zs := fun y hy =>
    (flat_below X.nodes _).mpr ⟨_, hx, ys, hys, hy, (X.setting.path hx).symm⟩
  simp only [Full.table, Option.bind_eq_bind, Option.bind_eq_some_iff, Option.pure_def, Option.some.injEq] at hys
  obtain ⟨n, hn, _, -, args, ha, dflt, -, adds, hadd, consts, hc, accs, hacc, rfl⟩ := hys
  obtain rfl := Gen.formatIdent_eq hn
  have hbs := hd (y := Full.builderStruct (QIdent.simple t.ident)) (by simp) rfl
  have hbi := hf (Full.builderImpl (QIdent.simple t.ident) adds t.fields) (by simp)
  have hai := hf (Full.tableAccess (QIdent.simple t.ident) accs) (by simp)
  refine ⟨⟨_, _, _, _, X.itemTable hx, ?_⟩, ⟨_, _, args, _, hd (y := Full.argsStruct (QIdent.simple t.ident) t.fields args) (by simp) rfl,
    argFields_api ha⟩, ⟨_, _, _, _, hbs⟩, ?_, ?_, ?_, ?_, ?_, fun f => X.builder_offers hbs⟩
  · rw [docs_derive, docs_comment]
  · refine ⟨Full.createFn (QIdent.simple t.ident) t.fields, ⟨rfl, _, _, _, _,
      hf (Full.tableCreate (QIdent.simple t.ident) consts t.fields) (by simp), T.ownAt _ (.inl rfl) _, ?_⟩, rfl, rfl⟩
    rw [implFns_append]
    simp [implFns]
  · refine ⟨Full.getRootFn, ⟨rfl, _, _, _, _, hai, T.ownAt _ (.inr rfl) _, ?_⟩, rfl, rfl⟩
    rw [implFns_append]
    simp [implFns]
  · intro x hxf
    obtain ⟨a, ha, hax⟩ := mapM_image hacc x hxf
    obtain ⟨h1, h2, h3⟩ := accessor_api hax
    refine ⟨a, ⟨h1, _, _, _, _, hai, T.ownAt _ (.inr rfl) _, ?_⟩, (accessor_shape hax).1, h2, h3⟩
    rw [implFns_append, implFns_fns]
    simp [ha]
  · refine ⟨Full.newFn (QIdent.simple t.ident), ⟨rfl, _, _, _, _, hbi, T.builder _ (.inl rfl) rfl, ?_⟩, rfl, rfl⟩
    rw [implFns_append]
    simp [implFns]
  · refine ⟨Full.finishFn (QIdent.simple t.ident) t.fields, ⟨rfl, _, _, _, _, hbi, T.builder _ (.inl rfl) rfl, ?_⟩, rfl, rfl⟩
    rw [implFns_append]
    simp [implFns]

omit [FloatText] in
theorem variants_api {base : Str} : ∀ {l : List (Ir.EnumVariant × Nat)} {vs : List (Str × Rs.Lit × Ast.Comment)},
    l.mapM (Full.variantLit base) = some vs →
    (vs.map fun x => (⟨Full.comment x.2.2, x.1, .value x.2.1⟩ : Variant)).map (fun v => (v.name, docs v.attrs)) =
      l.map fun x => (x.1.ident, x.1.doc)
  | [], vs, h => by cases h; rfl
  | x :: l, vs, h => by
    simp only [List.mapM_cons, Option.bind_eq_bind, Option.bind_eq_some_iff, Option.pure_def, Option.some.injEq] at h
    obtain ⟨a, ha, as, has, rfl⟩ := h
    simp only [Full.variantLit, Option.bind_eq_bind, Option.bind_eq_some_iff, Option.pure_def, Option.some.injEq] at ha
    obtain ⟨i, hi, rfl⟩ := ha
    obtain rfl := Gen.formatIdent_eq hi
    have ih := variants_api has
    simp only [List.map_cons, docs_comment, ih]

theorem enumApi (X : Written gm E out P zs) {p : List Ident} {e : Ir.Enum} (hx : (p, Node.enum e) ∈ itemsOf out) :
    EnumApi ⟨zs, P.forget⟩ e := by
  obtain ⟨items, hi, -⟩ := Rs.emit_enum X.setting.emitted hx
  have := (enum_agree e).isSome
  rw [hi, Option.isSome_some, Option.isSome_iff_exists] at this
  obtain ⟨ys, hys⟩ := this
  have hd := fun {y n gs} => X.item hx (ys := ys) hys (y := y) (n := n) (gs := gs)
  have hf : ∀ y ∈ ys, (modOf e.ident, y) ∈ flatItems [] zs := fun y hy =>
    (flat_below X.nodes _).mpr ⟨_, hx, ys, hys, hy, (X.setting.path hx).symm⟩
  simp only [Full.enum, Option.bind_eq_bind, Option.bind_eq_some_iff, Option.pure_def, Option.some.injEq] at hys
  obtain ⟨n, hn, vs, hvs, rfl⟩ := hys
  obtain rfl := Gen.formatIdent_eq hn
  refine ⟨⟨_, _, _, hd List.mem_cons_self rfl, ?_, ?_⟩, _, hf (Full.enumName (QIdent.simple e.ident) vs) (by simp), rfl, rfl, rfl⟩
  · rw [docs_append, docs_comment]
    rfl
  · rw [variants_api hvs]
    change e.variants.zipIdx.map ((fun v : Ir.EnumVariant => (v.ident, v.doc)) ∘ Prod.fst) = _
    rw [← List.map_map, List.zipIdx_map_fst]

theorem unionApi (X : Written gm E out P zs) {p : List Ident} {u : Ir.Union} (hx : (p, Node.union u) ∈ itemsOf out) :
    UnionApi ⟨zs, P.forget⟩ u := by
  obtain ⟨items, hi, hp⟩ := Rs.emit_union X.setting.emitted hx
  have := (union_agree u).isSome
  rw [hi, Option.isSome_some, Option.isSome_iff_exists] at this
  obtain ⟨ys, hys⟩ := this
  rw [X.setting.path hx] at hp
  simp only [Rs.emitUnion, Option.bind_eq_bind, Option.bind_eq_some_iff, Option.pure_def, Option.some.injEq] at hi
  obtain ⟨n, hn, e, -, vs, -, rfl⟩ := hi
  obtain rfl := Gen.formatIdent_eq hn
  have own := X.ownName (sc := ⟨modOf u.ident, [], none⟩) (.inl rfl) (hp.mem_names ⟨_, List.mem_cons_self, rfl⟩)
  have hd := fun {y n gs} => X.item hx (ys := ys) hys (y := y) (n := n) (gs := gs)
  have hf : ∀ y ∈ ys, (modOf u.ident, y) ∈ flatItems [] zs := fun y hy =>
    (flat_below X.nodes _).mpr ⟨_, hx, ys, hys, hy, (X.setting.path hx).symm⟩
  simp only [Full.union, Option.bind_eq_bind, Option.bind_eq_some_iff, Option.pure_def, Option.some.injEq] at hys
  obtain ⟨n, hn, e, -, vs, hvs, rfl⟩ := hys
  obtain rfl := Gen.formatIdent_eq hn
  refine ⟨⟨_, _, _, hd List.mem_cons_self rfl, ?_, ?_⟩, _, ⟨?_, _, _, _, _, hf (Full.unionImpl (QIdent.simple u.ident) e u.variants) (by simp),
    own, List.mem_cons_self⟩, ?_, ?_⟩
  rotate_left 2
  · rfl
  · rfl
  · rfl
  · rw [docs_derive, docs_comment]
  · clear hd hf hp own
    generalize u.variants = l at hvs
    induction l generalizing vs with
    | nil => cases hvs; rfl
    | cons x l ih =>
      simp only [List.mapM_cons, Option.bind_eq_bind, Option.bind_eq_some_iff, Option.pure_def, Option.some.injEq] at hvs
      obtain ⟨a, ha, as, has, rfl⟩ := hvs
      simp only [Full.unionVariant, Option.bind_eq_bind, Option.bind_eq_some_iff, Option.pure_def, Option.some.injEq] at ha
      obtain ⟨i, hi, t, -, rfl⟩ := ha
      obtain rfl := Gen.formatIdent_eq hi
      simp only [List.map_cons, docs_comment, ih _ has]

theorem api (X : Written gm E out P zs) : ApiOk ⟨zs, P.forget⟩ out := by
  refine ⟨nodes_modsPub gm out zs X.nodes, ?_⟩
  rintro ⟨p, x⟩ hx
  cases x with
  | table t => exact X.tableApi hx
  | «enum» e => exact X.enumApi hx
  | union u => exact X.unionApi hx
  | _ => trivial

end Written

omit [FloatText] in
theorem simple_nameIn (ns : Option Ast.QIdent) (i : Ast.Ident) : QIdent.simple (Ir.nameIn ns i) = Ir.fixIdentifier i := by
  simp [QIdent.simple, Ir.nameIn]

omit [FloatText] in
/-- The fields of a declared table among those of the item. -/
theorem fields_docs {E : List Ast.Element} {N : Ir.Names} {ns : Option Ast.QIdent} {F : File} {q : QIdent}
    (hu : ∀ t q e vs, Ir.Means N ns t (.union q e vs) → NamesUnion E ns t) {fs : List Ast.Field} {gs : List Ir.Field}
    (h : Ir.FieldsMean N ns fs gs)
    (ha : ∀ x ∈ gs, Accessor F q x.ident (if x.ty.isUnion then [] else x.doc)) :
    ∀ f ∈ fs, Accessor F q (Ir.fixIdentifier f.id) f.doc ∨ (NamesUnion E ns f.ty ∧ Accessor F q (Ir.fixIdentifier f.id) [] ∧
      Accessor F q (Ir.fixIdentifier (Heck.snake f.id ++ c!"_type")) f.doc) := by
  induction h with
  | nil => nofun
  | plain hq hm hn _ ih =>
    rw [List.forall_mem_cons] at ha ⊢
    refine ⟨.inl ?_, ih ha.2⟩
    have := ha.1
    rwa [if_neg (by simp [hn])] at this
  | union hq hm he _ ih =>
    rw [List.forall_mem_cons, List.forall_mem_cons] at ha
    rw [List.forall_mem_cons]
    exact ⟨.inr ⟨hu _ _ _ _ hm, ha.2.1, ha.1⟩, ih ha.2.2⟩

namespace Written

theorem docs (X : Written gm E out P zs) : DocsOk ⟨zs, P.forget⟩ E := by
  intro p el hel
  obtain ⟨groups, g1, g2, _⟩ := X.setting.translates
  have hun : ∀ t q e vs, Ir.Means (Ir.Names.ofItems groups.flatten) (Ir.lastNs (E.take p)) t (.union q e vs) →
      NamesUnion E (Ir.lastNs (E.take p)) t := by
    intro t q e vs h
    generalize hty : Ir.Ty.union q e vs = ty at h
    cases h with
    | custom q' ct h =>
      cases ct <;> simp only [Ir.CustomType.ref, reduceCtorEq] at hty
      obtain ⟨n, hn, hd⟩ := h
      obtain ⟨g, hg, hng⟩ := List.mem_flatten.mp hn
      obtain ⟨p', _, el', hel', hem⟩ := Ir.all₂_right g2 hg
      cases hem <;> simp only [List.mem_singleton, List.mem_cons, List.not_mem_nil, or_false] at hng <;>
        first | subst hng | rcases hng with rfl | rfl
      all_goals simp [Ir.Node.defines] at hd
      exact ⟨q', p', _, rfl, hel', hd.1.symm⟩
    | _ => simp at hty
  have api := X.api.2
  by_cases hdec : Ir.declares el = true
  · obtain ⟨g, hg, el', hel', hem⟩ := Ir.all₂_left g2 (Ir.mem_declPositions.mpr ⟨el, hel, hdec⟩)
    rw [hel] at hel'
    cases hel'
    have hin : ∀ n ∈ g, ∃ path, (path, n) ∈ itemsOf out := by
      intro n hn
      exact ⟨_, Ir.holds_mem g1 (List.mem_flatten.mpr ⟨g, hg, hn⟩)⟩
    cases hem with
    | table t fields root h =>
      obtain ⟨path, hx⟩ := hin _ List.mem_cons_self
      have T := api _ hx
      simp only [TableApi, simple_nameIn] at T
      obtain ⟨h1, h2, h3, h4, h5, h6, h7⟩ := T
      refine ⟨h1, fields_docs hun h fun x hx => ?_⟩
      obtain ⟨f, k1, k2, k3, k4⟩ := h6 x hx
      exact ⟨f, by rwa [simple_nameIn], k2, k3, k4⟩
    | struct s fields h => trivial
    | «enum» e base h =>
      obtain ⟨path, hx⟩ := hin _ List.mem_cons_self
      have T := api _ hx
      simp only [EnumApi, simple_nameIn, List.map_map] at T
      exact T.1
    | union u vs h =>
      obtain ⟨path, hx⟩ := hin _ (List.mem_cons_of_mem _ List.mem_cons_self)
      have T := api _ hx
      simp only [UnionApi, simple_nameIn] at T
      obtain ⟨⟨as, gs, vs', h1, h2, h3⟩, -⟩ := T
      refine ⟨as, gs, vs', h1, h2, h3.trans ?_⟩
      clear h3 h1 hx hin hun hg hel hdec
      generalize u.variants = us at h
      induction h with
      | nil => rfl
      | cons a _ ih =>
        obtain ⟨ty, -, rfl⟩ := a
        simp only [List.map_cons, ih]
    | rpc r ms h => trivial
  · cases el <;> first | trivial | exact absurd rfl hdec

end Written

end

end Butte.Src
