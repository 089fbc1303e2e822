import Verif.Src.FullErase
import Verif.Rs.TypedProgram
import Verif.Rs.TableAt
/-
The names of a well-typed program can be read back.
-/
namespace Butte.Src
open Ir (QIdent Node Ident itemsOf)
open Rs (Program Setting WellTyped legalName emitNode emitNodes emit)

theorem nameOk_of_legal {s : Str} (h : legalName s = true) : nameOk s = true := by
  cases s with
  | nil => cases h
  | cons c r =>
    simp only [legalName, Bool.and_eq_true] at h
    simp only [nameOk, Bool.and_eq_true]
    exact ⟨h.1.2, h.2⟩

theorem nameOk_of_rustName {s : Str} (h : Gen.rustName s = true) : nameOk s = true ∧ s ≠ c!"None" := by
  cases s with
  | nil => cases h
  | cons c r =>
    simp only [Gen.rustName, Bool.and_eq_true, decide_eq_true_eq] at h
    refine ⟨by simp [nameOk, h.1.1.2, h.1.2], fun e => h.2 ?_⟩
    rw [e]; decide

/-- What is on a path that leads somewhere is `super`, or the name of an item. -/
theorem lookup_segs {items : List Gen.Item} : ∀ {cur p : List Str} {i : Gen.Item}, Gen.lookup items cur p = some i →
    ∀ s ∈ p, s = c!"super" ∨ ∃ y ∈ items, y.name = s
  | _, [], _, h, s, hs => by cases hs
  | cur, [t], i, h, s, hs => by
    rw [List.mem_singleton] at hs
    subst hs
    simp only [Gen.lookup] at h
    split at h
    · rename_i hm
      exact .inr ⟨_, hm.2, rfl⟩
    · cases h
  | cur, t :: u :: p, i, h, s, hs => by
    simp only [Gen.lookup] at h
    rcases List.mem_cons.mp hs with rfl | hs
    · split at h
      · rename_i e
        exact .inl e
      · split at h
        · rename_i hm
          exact .inr ⟨_, hm, rfl⟩
        · cases h
    · split at h
      · split at h
        · cases h
        · exact lookup_segs h s hs
      · split at h
        · exact lookup_segs h s hs
        · cases h

/-- The names that a program introduces are among those that its items declare. -/
theorem introduces_idents {i : Rs.Item} {s : Gen.Space} {n : Str} (h : i.introduces = some (s, n)) : n ∈ i.idents := by
  cases i <;> simp only [Rs.Item.introduces, Option.some.injEq, Prod.mk.injEq, reduceCtorEq] at h <;>
    simp [Rs.Item.idents, Rs.Fn.idents, h.2]

theorem names_legal {P : Program} (W : WellTyped P) {y : Gen.Item} (hy : y ∈ P.names) : legalName y.name = true := by
  obtain ⟨x, hx, h⟩ := List.mem_filterMap.mp hy
  cases hi : x.2.introduces with
  | none => simp [hi] at h
  | some sn =>
    simp only [hi, Option.map_some, Option.some.injEq] at h
    subst h
    exact (W.2 x hx).1 _ (introduces_idents hi)

theorem mapM_image {α β : Type} {f : α → Option β} : ∀ {l : List α} {r : List β}, l.mapM f = some r → ∀ x ∈ l, ∃ y ∈ r, f x = some y
  | [], _, _, _, hx => by cases hx
  | a :: l, r, h, x, hx => by
    simp only [List.mapM_cons, Option.bind_eq_bind, Option.bind_eq_some_iff, Option.pure_def, Option.some.injEq] at h
    obtain ⟨b, hb, bs, hbs, rfl⟩ := h
    rcases List.mem_cons.mp hx with rfl | hx
    · exact ⟨b, by simp, hb⟩
    · obtain ⟨y, hy, he⟩ := mapM_image hbs x hx
      exact ⟨y, by simp [hy], he⟩

/-! ### A check -/

/-- `SegsOk`, as a check. -/
def segsB (q : List Str) : Bool := q.all segOk
/-- The paths of a type. -/
def pathsB (ns : Option QIdent) (ty : Ir.Ty) : Bool := (Gen.tyPaths ty).all fun q => segsB (QIdent.relative q ns)
/-- `FieldLegible`, as a check. -/
def fieldB (ns : Option QIdent) (f : Ir.Field) : Bool :=
  nameOk f.ident && !(f.ident == c!"None") && nameOk (Heck.snake f.ident) && pathsB ns f.ty &&
  (f.ty.isUnion || match f.default with | some (.ident i) => nameOk i | _ => true) &&
  (match f.ty with
    | .union _ e vs => segsB (QIdent.relative e ns) && vs.all fun v => nameOk v.ident && pathsB ns v.ty
    | _ => true)
mutual
/-- `NodeLegible`, as a check. -/
def nodeB : Node → Bool
  | .table t => nameOk (QIdent.simple t.ident) && t.fields.all (fieldB (QIdent.namespace t.ident))
  | .enum e => nameOk (QIdent.simple e.ident) && e.variants.all fun v => nameOk v.ident
  | .union u => nameOk (QIdent.simple u.ident) && segsB (QIdent.relative u.enumIdent (QIdent.namespace u.ident)) &&
      u.variants.all fun v => nameOk v.ident && pathsB (QIdent.namespace u.ident) v.ty
  | .struct _ | .rpc _ => true
  | .namespace i ns => nameOk (Heck.snake (QIdent.simple i)) && legibleB ns
/-- `Legible`, as a check. -/
def legibleB : List Node → Bool
  | [] => true
  | n :: ns => nodeB n && legibleB ns
end

theorem segs_of_check {q : List Str} (h : segsB q = true) : SegsOk q := List.all_eq_true.mp h

theorem paths_of_check {ns : Option QIdent} {ty : Ir.Ty} (h : pathsB ns ty = true) :
    ∀ q ∈ Gen.tyPaths ty, SegsOk (QIdent.relative q ns) := fun q hq => segs_of_check (List.all_eq_true.mp h q hq)

mutual
theorem node_of_check : ∀ {n : Node}, nodeB n = true → NodeLegible n
  | .table t, h => by
    simp only [nodeB, Bool.and_eq_true, List.all_eq_true] at h
    simp only [NodeLegible]
    refine ⟨h.1, fun f hf => ?_⟩
    have := h.2 f hf
    simp only [fieldB, Bool.and_eq_true, Bool.not_eq_true', beq_eq_false_iff_ne] at this
    obtain ⟨⟨⟨⟨⟨h1, h2⟩, h3⟩, h4⟩, h5⟩, h6⟩ := this
    refine ⟨h1, h2, h3, paths_of_check h4, ?_, ?_⟩
    · intro hu i hi
      simpa [hi, hu] using h5
    · intro q e vs hty
      rw [hty] at h6
      simp only [Bool.and_eq_true, List.all_eq_true] at h6
      exact ⟨segs_of_check h6.1, fun v hv => ⟨(h6.2 v hv).1, paths_of_check (h6.2 v hv).2⟩⟩
  | .enum e, h => by
    simp only [nodeB, Bool.and_eq_true, List.all_eq_true] at h
    simp only [NodeLegible]
    exact ⟨h.1, h.2⟩
  | .union u, h => by
    simp only [nodeB, Bool.and_eq_true, List.all_eq_true] at h
    simp only [NodeLegible]
    exact ⟨h.1.1, segs_of_check h.1.2, fun v hv => ⟨(h.2 v hv).1, paths_of_check (h.2 v hv).2⟩⟩
  | .struct _, _ | .rpc _, _ => by simp only [NodeLegible]
  | .namespace i ns, h => by
    simp only [nodeB, Bool.and_eq_true] at h
    simp only [NodeLegible]
    exact ⟨h.1, legible_of_check h.2⟩
/-- What passes the check can be read back. -/
theorem legible_of_check : ∀ {ns : List Node}, legibleB ns = true → Legible ns
  | [], _ => by simp only [Legible]
  | n :: ns, h => by
    simp only [legibleB, Bool.and_eq_true] at h
    simp only [Legible]
    exact ⟨node_of_check h.1, legible_of_check h.2⟩
end

section
variable {gm : Mode} {E : List Ast.Element} {out : List Node} {P : Program}

theorem segs_of (S : Setting gm E out P) (W : WellTyped P) {x : List Ident × Node} (hx : x ∈ itemsOf out) {q : QIdent}
    (hq : q ∈ Gen.paths x.2) : SegsOk (QIdent.relative q (QIdent.namespace x.2.ident)) := by
  intro s hs
  rcases lookup_segs (S.leads x hx q hq).2 s hs with rfl | ⟨y, hy, rfl⟩
  · decide
  · exact segOk_of (nameOk_of_legal (names_legal W hy))

theorem placed_mem {m : List Str} {items : List Rs.Item} (h : Rs.Placed P m items) {i : Rs.Item} (hi : i ∈ items) : (m, i) ∈ P := by
  obtain ⟨A, B, rfl, -⟩ := h
  simp [hi]

theorem enum_legible (S : Setting gm E out P) (W : WellTyped P) {p : List Ident} {e : Ir.Enum} (hx : (p, Node.enum e) ∈ itemsOf out) :
    EnumLegible e := by
  obtain ⟨items, hi, hp⟩ := Rs.emit_enum S.emitted hx
  simp only [Rs.emitEnum, Option.bind_eq_bind, Option.bind_eq_some_iff, Option.pure_def, Option.some.injEq] at hi
  obtain ⟨n, hn, vs, hvs, rfl⟩ := hi
  obtain rfl := Gen.formatIdent_eq hn
  have h := (W.2 _ (placed_mem hp List.mem_cons_self)).1
  refine ⟨nameOk_of_legal (h _ List.mem_cons_self), fun v hv => nameOk_of_legal (h _ (List.mem_cons_of_mem _ ?_))⟩
  obtain ⟨k, hk⟩ := List.mem_iff_getElem?.mp hv
  obtain ⟨y, hy, he⟩ := mapM_image hvs (v, k) (List.mem_zipIdx_iff_getElem?.mpr hk)
  simp only [Rs.variantLit, Option.bind_eq_bind, Option.bind_eq_some_iff, Option.pure_def, Option.some.injEq] at he
  obtain ⟨i, hi, rfl⟩ := he
  exact List.mem_map.mpr ⟨_, hy, Gen.formatIdent_eq hi⟩

theorem union_legible (S : Setting gm E out P) (W : WellTyped P) {p : List Ident} {u : Ir.Union} (hx : (p, Node.union u) ∈ itemsOf out) :
    UnionLegible u := by
  obtain ⟨items, hi, hp⟩ := Rs.emit_union S.emitted hx
  simp only [Rs.emitUnion, Option.bind_eq_bind, Option.bind_eq_some_iff, Option.pure_def, Option.some.injEq] at hi
  obtain ⟨n, hn, e, he, vs, hvs, rfl⟩ := hi
  obtain rfl := Gen.formatIdent_eq hn
  have h := (W.2 _ (placed_mem hp List.mem_cons_self)).1
  refine ⟨nameOk_of_legal (h _ List.mem_cons_self), segs_of S W hx List.mem_cons_self, fun v hv => ⟨?_, fun q hq => ?_⟩⟩
  · refine nameOk_of_legal (h _ (List.mem_cons_of_mem _ ?_))
    obtain ⟨y, hy, he⟩ := mapM_image hvs v hv
    simp only [Rs.unionVariant, Option.bind_eq_bind, Option.bind_eq_some_iff, Option.pure_def, Option.some.injEq] at he
    obtain ⟨t, ht, i, hi, rfl⟩ := he
    exact List.mem_map.mpr ⟨_, hy, Gen.formatIdent_eq hi⟩
  · exact segs_of S W hx (List.mem_cons_of_mem _ (List.mem_flatMap.mpr ⟨v, hv, hq⟩))

theorem table_legible (S : Setting gm E out P) (W : WellTyped P) {p : List Ident} {t : Ir.Table} (hx : (p, Node.table t) ∈ itemsOf out)
    {gs : List Gen.GField} (hc : Gen.compileTable gm t = some gs) : TableLegible t := by
  obtain ⟨items, hi, hp⟩ := Rs.emit_table S.emitted hx
  simp only [Rs.emitTable, Option.bind_eq_bind, Option.bind_eq_some_iff, Option.pure_def, Option.some.injEq] at hi
  obtain ⟨n, hn, _, _, args, _, ds, _, adds, _, cs, _, accs, haccs, rfl⟩ := hi
  obtain rfl := Gen.formatIdent_eq hn
  have C := Rs.Compiled.of hc
  have D := (Rs.table_defined S.translates hx).2
  refine ⟨nameOk_of_legal ((W.2 _ (placed_mem hp (i := Rs.tableStruct _) (by simp))).1 _ List.mem_cons_self), fun f hf => ?_⟩
  have hr := nameOk_of_rustName (C.usable f hf)
  have hq : ∀ q ∈ Gen.tyPaths f.ty ++ (match f.ty with
      | .union q e vs => q :: e :: vs.flatMap fun v => Gen.tyPaths v.ty
      | _ => []), SegsOk (QIdent.relative q (QIdent.namespace t.ident)) := fun q hq =>
    segs_of S W hx (List.mem_flatMap.mpr ⟨f, hf, hq⟩)
  refine ⟨hr.1, hr.2, ?_, fun q h => hq q (List.mem_append_left _ h), ?_, ?_⟩
  · obtain ⟨g, hg, hge⟩ := mapM_image haccs f hf
    simp only [Rs.accessor, Option.bind_eq_bind, Option.bind_eq_some_iff, Option.pure_def, Option.some.injEq] at hge
    obtain ⟨sn, hs, _, _, _, _, _, _, _, _, rfl⟩ := hge
    obtain rfl := Gen.formatIdent_eq hs
    refine nameOk_of_legal ((W.2 _ (placed_mem hp (i := Rs.tableAccess t.ident.simple accs) (by simp))).1 _ ?_)
    simp only [Rs.tableAccess, Rs.Item.idents, List.map_nil, List.append_nil]
    refine List.mem_append_right _ (List.mem_flatMap.mpr ⟨_, List.mem_append_left _ hg, ?_⟩)
    simp [Rs.Fn.idents]
  · intro hu i hd
    obtain ⟨k, hk⟩ := List.mem_iff_getElem?.mp hf
    obtain ⟨g, -, -, -, -, hkind⟩ := C.fields k f hk
    rw [hd] at hkind
    have hdef := D f hf
    cases hty : f.ty <;> rw [hty] at hkind hdef hu <;> (first | cases hu; done | skip) <;>
      simp only [Gen.kindOf, reduceCtorEq] at hkind
    case «enum» q vs b =>
      simp only [Option.bind_eq_bind, Option.bind_eq_some_iff, Gen.enumDefault] at hkind
      obtain ⟨_, _, j, hj, -⟩ := hkind
      obtain ⟨hj, hv, -⟩ := List.findIdx?_eq_some_iff_getElem.mp hj
      obtain ⟨⟨p', y⟩, hy, hyd⟩ := hdef
      cases y <;> simp only [Node.defines, Option.some.injEq, Prod.mk.injEq, reduceCtorEq, and_false,
        Ir.CustomType.enum.injEq] at hyd
      obtain ⟨rfl, rfl, rfl⟩ := hyd
      have := (enum_legible S W hy).variants _ (List.getElem_mem hj)
      rw [beq_iff_eq] at hv
      rwa [hv] at this
  · intro q e vs hty
    rw [hty] at hq
    have hdef := D f hf
    rw [hty] at hdef
    obtain ⟨⟨p', y⟩, hy, hyd⟩ := hdef
    cases y <;> simp only [Node.defines, Option.some.injEq, Prod.mk.injEq, reduceCtorEq, and_false,
      Ir.CustomType.union.injEq] at hyd
    obtain ⟨rfl, rfl, rfl⟩ := hyd
    refine ⟨hq _ (by simp), fun v hv => ⟨((union_legible S W hy).variants v hv).1, fun q hm => hq q ?_⟩⟩
    exact List.mem_append_right _ (List.mem_cons_of_mem _ (List.mem_cons_of_mem _ (List.mem_flatMap.mpr ⟨v, hv, hm⟩)))

end

mutual
theorem nodeLegible_of (gm : Mode) (R : List Ident) : ∀ (n : Node) (P : Program) (path : List Str), emitNode gm path n = some P →
    (∀ y ∈ P, ∀ m, y.2 = .mod m → nameOk m = true) →
    (∀ x ∈ n.leaves R, NodeLegible x.2) → NodeLegible n
  | .table _, P, path, h, hm, hx | .struct _, P, path, h, hm, hx | .enum _, P, path, h, hm, hx | .union _, P, path, h, hm, hx
  | .rpc _, P, path, h, hm, hx => hx _ (by simp only [Ir.Node.leaves, List.mem_singleton]; rfl)
  | .namespace i ns, P, path, h, hm, hx => by
    simp only [emitNode, Option.bind_eq_bind, Option.bind_eq_some_iff, Option.pure_def, Option.some.injEq] at h
    obtain ⟨m, hm', items, hi, rfl⟩ := h
    obtain rfl := Gen.formatIdent_eq hm'
    simp only [NodeLegible]
    exact ⟨hm _ List.mem_cons_self _ rfl, legible_of gm (R ++ [QIdent.simple i]) ns items _ hi (fun y hy => hm y (List.mem_cons_of_mem _ hy)) hx⟩
theorem legible_of (gm : Mode) (R : List Ident) : ∀ (ns : List Node) (P : Program) (path : List Str), emitNodes gm path ns = some P →
    (∀ y ∈ P, ∀ m, y.2 = .mod m → nameOk m = true) →
    (∀ x ∈ Node.leavesL R ns, NodeLegible x.2) → Legible ns
  | [], P, path, h, hm, hx => by simp only [Legible]
  | n :: ns, P, path, h, hm, hx => by
    simp only [emitNodes, Option.bind_eq_bind, Option.bind_eq_some_iff, Option.pure_def, Option.some.injEq] at h
    obtain ⟨a, ha, b, hb, rfl⟩ := h
    simp only [Legible]
    exact ⟨nodeLegible_of gm R n a path ha (fun y hy => hm y (List.mem_append_left _ hy)) fun x h => hx x (by simp [Ir.Node.leavesL, h]),
      legible_of gm R ns b path hb (fun y hy => hm y (List.mem_append_right _ hy)) fun x h => hx x (by simp [Ir.Node.leavesL, h])⟩
end

/-- The names of a well-typed program, of tables that there is working code for, can be read back. -/
theorem legible {gm : Mode} {E : List Ast.Element} {out : List Node} {P : Program} (S : Setting gm E out P) (W : WellTyped P)
    (hc : ∀ p t, (p, Node.table t) ∈ itemsOf out → ∃ gs, Gen.compileTable gm t = some gs)
    (hi : ∀ x ∈ itemsOf out, x.2.isItem = true) : Legible out := by
  refine legible_of gm [] out P [] S.emitted ?_ ?_
  · intro y hy m hm
    exact nameOk_of_legal ((W.2 y hy).1 m (by rw [hm]; simp [Rs.Item.idents]))
  · rintro ⟨p, n⟩ hx
    cases n with
    | table t =>
      obtain ⟨gs, hgs⟩ := hc p t hx
      exact table_legible S W hx hgs
    | «enum» e => exact enum_legible S W hx
    | union u => exact union_legible S W hx
    | struct | rpc => trivial
    | «namespace» i ns => exact absurd (hi _ hx) (by simp [Ir.Node.isItem])

end Butte.Src
