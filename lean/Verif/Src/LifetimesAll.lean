import Verif.Src.LifetimesItems
import Verif.Rs.TypedConverse
/-
The generated files keep the rules for lifetimes.
-/
namespace Butte.Src
open Ir (QIdent Node Ident itemsOf)
open Rs (Program Setting WellTyped Hygienic modOf DefinedTy emit)

mutual
theorem leaves_isItem (R : List Ident) : ∀ (n : Node), ∀ x ∈ n.leaves R, x.2.isItem = true
  | .table _, x, h | .struct _, x, h | .enum _, x, h | .union _, x, h | .rpc _, x, h => by
    rw [Ir.Node.leaves, List.mem_singleton] at h
    rw [h]
    rfl
  | .namespace i ns, x, h => leavesL_isItem (R ++ [QIdent.simple i]) ns x (by simpa [Ir.Node.leaves] using h)
theorem leavesL_isItem (R : List Ident) : ∀ (ns : List Node), ∀ x ∈ Node.leavesL R ns, x.2.isItem = true
  | [], x, h => by simp [Ir.Node.leavesL] at h
  | n :: ns, x, h => by
    rw [Ir.Node.leavesL, List.mem_append] at h
    rcases h with h | h
    · exact leaves_isItem R n x h
    · exact leavesL_isItem R ns x h
end

section
variable [FloatText] {gm : Mode} {E : List Ast.Element} {out : List Node} {P : Program} {zs : List Item}

/-- What the items of a generated file are. -/
structure Written (gm : Mode) (E : List Ast.Element) (out : List Node) (P : Program) (zs : List Item) : Prop where
  setting : Setting gm E out P
  nodes : Full.nodes gm out = some zs
  erased : eraseItems [] zs = some P.forget

namespace Written

theorem hygienic (X : Written gm E out P zs) : Hygienic P.forget := by
  intro i hi
  rw [names_forget] at hi
  exact X.setting.hygienic i hi

omit [FloatText] in
theorem lookup_arity (h : Hygienic P) {sc : Rs.Scope} (hsc : sc.Ok) {p m : List Str} {n : Str}
    (hl : Gen.lookup P.names sc.module p = some ⟨m, .type, n⟩) {gs : List GParam} (hd : File.decl ⟨zs, P.forget⟩ m n = some gs) :
    File.arity ⟨zs, P.forget⟩ sc p = (lifeNames gs).length := by
  have hl' : Gen.lookup P.forget.names sc.module p = some ⟨m, .type, n⟩ := by rwa [names_forget]
  have hh : Hygienic P.forget := by
    intro i hi
    rw [names_forget] at hi
    exact h i hi
  refine arity_item ?_ (Rs.resolve_lookup hh hsc hl') hd
  cases p with
  | nil => simp
  | cons s p =>
    rintro ⟨⟩
    rcases Rs.lookup_head hl' with e | hm
    · cases e
    · exact hh.plain hm (by decide)

/-- The generic parameters of what an item of the schema declares. -/
theorem decl (X : Written gm E out P zs) {x : List Ident × Node} (hx : x ∈ itemsOf out) {ys : List Item}
    (hy : Full.node gm x.2 = some ys) {y : Item} (hm : y ∈ ys) {n : Str} {gs : List GParam} (hd : y.declares = some (n, gs)) :
    File.decl ⟨zs, P.forget⟩ (modOf x.2.ident) n = some gs := by
  refine decl_of X.erased (by rw [names_forget]; exact X.setting.nodup) (i := y) ?_ hd
  exact (flat_below X.nodes _).mpr ⟨x, hx, ys, hy, hm, (X.setting.path hx).symm⟩

theorem declTable (X : Written gm E out P zs) {p : List Ident} {t : Ir.Table} (hx : (p, Node.table t) ∈ itemsOf out) :
    File.decl ⟨zs, P.forget⟩ (modOf t.ident) (QIdent.simple t.ident) = some [.ty c!"B"] ∧
    File.decl ⟨zs, P.forget⟩ (modOf t.ident) (QIdent.simple t.ident ++ c!"Args") = some (Full.argsGenerics t.fields) ∧
    File.decl ⟨zs, P.forget⟩ (modOf t.ident) (QIdent.simple t.ident ++ c!"Builder") = some [.life c!"a" none, .life c!"b" none] := by
  obtain ⟨items, hi, -⟩ := Rs.emit_table X.setting.emitted hx
  have := (table_agree gm t).isSome
  rw [hi, Option.isSome_some, Option.isSome_iff_exists] at this
  obtain ⟨ys, hys⟩ := this
  have hd := fun {y n gs} => X.decl hx (ys := ys) hys (y := y) (n := n) (gs := gs)
  simp only [Full.table, Option.bind_eq_bind, Option.bind_eq_some_iff, Option.pure_def, Option.some.injEq] at hys
  obtain ⟨n, hn, _, -, args, -, dflt, -, adds, -, consts, -, accs, -, rfl⟩ := hys
  obtain rfl := Gen.formatIdent_eq hn
  exact ⟨hd (y := Full.tableStruct (QIdent.simple t.ident) t.doc) (by simp) rfl,
    hd (y := Full.argsStruct (QIdent.simple t.ident) t.fields args) (by simp) rfl,
    hd (y := Full.builderStruct (QIdent.simple t.ident)) (by simp) rfl⟩

theorem declEnum (X : Written gm E out P zs) {p : List Ident} {e : Ir.Enum} (hx : (p, Node.enum e) ∈ itemsOf out) :
    File.decl ⟨zs, P.forget⟩ (modOf e.ident) (QIdent.simple e.ident) = some [] := by
  obtain ⟨items, hi, -⟩ := Rs.emit_enum X.setting.emitted hx
  have := (enum_agree e).isSome
  rw [hi, Option.isSome_some, Option.isSome_iff_exists] at this
  obtain ⟨ys, hys⟩ := this
  have hd := fun {y n gs} => X.decl hx (ys := ys) hys (y := y) (n := n) (gs := gs)
  simp only [Full.enum, Option.bind_eq_bind, Option.bind_eq_some_iff, Option.pure_def, Option.some.injEq] at hys
  obtain ⟨n, hn, vs, -, rfl⟩ := hys
  obtain rfl := Gen.formatIdent_eq hn
  exact hd List.mem_cons_self rfl

theorem declUnion (X : Written gm E out P zs) {p : List Ident} {u : Ir.Union} (hx : (p, Node.union u) ∈ itemsOf out) :
    File.decl ⟨zs, P.forget⟩ (modOf u.ident) (QIdent.simple u.ident) = some [.life c!"a" none] := by
  obtain ⟨items, hi, -⟩ := Rs.emit_union X.setting.emitted hx
  have := (union_agree u).isSome
  rw [hi, Option.isSome_some, Option.isSome_iff_exists] at this
  obtain ⟨ys, hys⟩ := this
  have hd := fun {y n gs} => X.decl hx (ys := ys) hys (y := y) (n := n) (gs := gs)
  simp only [Full.union, Option.bind_eq_bind, Option.bind_eq_some_iff, Option.pure_def, Option.some.injEq] at hys
  obtain ⟨n, hn, e, -, vs, -, rfl⟩ := hys
  obtain rfl := Gen.formatIdent_eq hn
  exact hd List.mem_cons_self rfl

/-- Types are given the lifetimes they are declared with. -/
theorem arTy (X : Written gm E out P zs) {x : List Ident × Node} (hx : x ∈ itemsOf out) {sc : Rs.Scope} (hsc : sc.Ok)
    (hm : sc.module = modOf x.2.ident) : ∀ {ty : Ir.Ty}, DefinedTy out ty → (∀ q ∈ Gen.tyPaths ty, q ∈ Gen.paths x.2) →
      ArTy ⟨zs, P.forget⟩ sc (QIdent.namespace x.2.ident) ty
  | .builtin _, _, _ | .string, _, _ => trivial
  | .array t, h, hp => X.arTy hx hsc hm (ty := t) h hp
  | .struct q fs, h, hp => (X.setting.hasTy (ty := .struct q fs) h).elim
  | .table q, h, hp => by
    have hl := (X.setting.leads x hx q (hp q (by simp [Gen.tyPaths]))).2
    rw [X.setting.path hx, ← hm] at hl
    obtain ⟨⟨p', y⟩, hy, hyd⟩ := h
    cases y <;> simp only [Node.defines, Option.some.injEq, Prod.mk.injEq, reduceCtorEq, and_false] at hyd
    obtain ⟨rfl, -⟩ := hyd
    exact lookup_arity X.setting.hygienic hsc hl (X.declTable hy).1
  | .enum q vs b, h, hp => by
    have hl := (X.setting.leads x hx q (hp q (by simp [Gen.tyPaths]))).2
    rw [X.setting.path hx, ← hm] at hl
    obtain ⟨⟨p', y⟩, hy, hyd⟩ := h
    cases y <;> simp only [Node.defines, Option.some.injEq, Prod.mk.injEq, reduceCtorEq, and_false, Ir.CustomType.enum.injEq] at hyd
    obtain ⟨rfl, -⟩ := hyd
    exact lookup_arity X.setting.hygienic hsc hl (X.declEnum hy)
  | .union q e vs, h, hp => by
    have hl := (X.setting.leads x hx q (hp q (by simp [Gen.tyPaths]))).2
    rw [X.setting.path hx, ← hm] at hl
    obtain ⟨⟨p', y⟩, hy, hyd⟩ := h
    cases y <;> simp only [Node.defines, Option.some.injEq, Prod.mk.injEq, reduceCtorEq, and_false, Ir.CustomType.union.injEq] at hyd
    obtain ⟨rfl, -⟩ := hyd
    exact lookup_arity X.setting.hygienic hsc hl (X.declUnion hy)

/-- A name of the own module. -/
theorem own (X : Written gm E out P zs) {sc : Rs.Scope} (hsc : sc.Ok) {n : Str} {gs : List GParam}
    (hn : (⟨sc.module, .type, n⟩ : Gen.Item) ∈ P.names) (hd : File.decl ⟨zs, P.forget⟩ sc.module n = some gs) :
    File.arity ⟨zs, P.forget⟩ sc [n] = (lifeNames gs).length := by
  refine lookup_arity X.setting.hygienic hsc ?_ hd
  rw [Gen.lookup, if_pos]
  refine ⟨?_, hn⟩
  rintro rfl
  exact X.setting.hygienic.plain hn (by decide)

theorem lives (X : Written gm E out P zs) (hb : ∀ p u, (p, Node.union u) ∈ itemsOf out → ∃ v ∈ u.variants, Borrows v.ty = true) :
    LifetimesOk ⟨zs, P.forget⟩ := by
  rintro ⟨m, i⟩ hz
  obtain ⟨⟨p, x⟩, hx, ys, hys, hi, hm⟩ := (flat_below X.nodes _).mp hz
  simp only at hi hm
  rw [X.setting.path hx] at hm
  subst hm
  have hh := X.hygienic
  cases x with
  | table t =>
    refine table_lives (m := modOf t.ident) ?_ hys i hi
    obtain ⟨d1, d2, d3⟩ := X.declTable hx
    obtain ⟨items, hit, hp⟩ := Rs.emit_table X.setting.emitted hx
    have hp' : Rs.Placed P (modOf t.ident) items := by
      have := X.setting.path hx
      rw [this] at hp
      exact hp
    obtain ⟨args, dflt, adds, consts, accs, -, -, -, -, -, -, -, rfl⟩ := Rs.emitTable_eq hit
    refine ⟨hh, ?_, ?_, ?_, ?_⟩
    · rintro sc hsc hm
      exact X.own hsc (hm ▸ hp'.mem_names ⟨Rs.tableStruct (QIdent.simple t.ident), by simp [Rs.tableItems], rfl⟩) (hm ▸ d1)
    · rintro sc hsc hm
      rw [X.own hsc (hm ▸ hp'.mem_names ⟨.struct (QIdent.simple t.ident ++ c!"Args") [] args, by simp [Rs.tableItems], rfl⟩) (hm ▸ d2)]
      unfold Full.argsGenerics
      split <;> rfl
    · rintro sc hsc hm
      exact X.own hsc (hm ▸ hp'.mem_names ⟨Rs.builderStruct (QIdent.simple t.ident), by simp [Rs.tableItems], rfl⟩) (hm ▸ d3)
    · intro f hf sc hsc hm
      have D := (Rs.table_defined X.setting.translates hx).2 f hf
      refine ⟨X.arTy hx hsc hm D fun q hq => List.mem_flatMap.mpr ⟨f, hf, List.mem_append_left _ hq⟩, ?_⟩
      intro q e vs hty v hv
      have D' := D
      rw [hty] at D'
      obtain ⟨⟨p', y⟩, hy, hyd⟩ := D'
      cases y <;> simp only [Node.defines, Option.some.injEq, Prod.mk.injEq, reduceCtorEq, and_false, Ir.CustomType.union.injEq] at hyd
      obtain ⟨rfl, rfl, rfl⟩ := hyd
      refine X.arTy hx hsc hm ((Rs.union_defined X.setting.translates hy).2.1 v hv) fun q hq =>
        List.mem_flatMap.mpr ⟨f, hf, List.mem_append_right _ ?_⟩
      rw [hty]
      exact List.mem_cons_of_mem _ (List.mem_cons_of_mem _ (List.mem_flatMap.mpr ⟨v, hv, hq⟩))
  | «enum» e =>
    refine enum_lives (m := modOf e.ident) hh (fun s => ?_) hys i hi
    obtain ⟨items, hit, hp⟩ := Rs.emit_enum X.setting.emitted hx
    rw [X.setting.path hx] at hp
    simp only [Rs.emitEnum, Option.bind_eq_bind, Option.bind_eq_some_iff, Option.pure_def, Option.some.injEq] at hit
    obtain ⟨n, hn, vs, -, rfl⟩ := hit
    obtain rfl := Gen.formatIdent_eq hn
    exact X.own (sc := ⟨modOf e.ident, [], s⟩) (.inl rfl) (hp.mem_names ⟨_, List.mem_cons_self, rfl⟩) (X.declEnum hx)
  | union u =>
    obtain ⟨items, hit, hp⟩ := Rs.emit_union X.setting.emitted hx
    rw [X.setting.path hx] at hp
    simp only [Rs.emitUnion, Option.bind_eq_bind, Option.bind_eq_some_iff, Option.pure_def, Option.some.injEq] at hit
    obtain ⟨n, hn, e, -, vs, -, rfl⟩ := hit
    obtain rfl := Gen.formatIdent_eq hn
    have hD := (Rs.union_defined X.setting.translates hx).2
    refine union_lives (m := modOf u.ident) hh (fun s => ?_) (fun s => ?_) (fun v hv s => ?_) (hb p u hx) hys i hi
    · exact X.own (sc := ⟨modOf u.ident, [], s⟩) (.inl rfl) (hp.mem_names ⟨_, List.mem_cons_self, rfl⟩) (X.declUnion hx)
    · exact X.arTy hx (sc := ⟨modOf u.ident, [], s⟩) (.inl rfl) rfl hD.2 (by simp [Gen.tyPaths, Gen.paths])
    · exact X.arTy hx (sc := ⟨modOf u.ident, [], s⟩) (.inl rfl) rfl (hD.1 v hv) fun q hq =>
        List.mem_cons_of_mem _ (List.mem_flatMap.mpr ⟨v, hv, hq⟩)
  | struct s => cases hys
  | rpc r => cases hys; cases hi
  | «namespace» i' ns => exact absurd (leavesL_isItem [] out _ hx) (by simp [Ir.Node.isItem])

end Written

end

theorem borrows_of {ty : Ir.Ty} (h : (Rs.irTy ty).borrows = true) : Borrows ty = true := by
  cases ty <;> first | rfl | (simp [Rs.irTy, Rs.RTy.borrows] at h)

end Butte.Src
