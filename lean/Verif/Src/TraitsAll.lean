import Verif.Src.TraitsTypes
import Verif.Src.LifetimesAll
/-
The generated files keep the rules for traits.
-/
namespace Butte.Src
open Ir (QIdent Node Ident itemsOf)
open Rs (Program Setting Hygienic modOf DefinedTy)

/-- What unions hold is declared in the schema. -/
theorem union_members {E : List Ast.Element} {out : List Node} (h : Ir.Translates E out) {p : List Ident} {u : Ir.Union}
    (hx : (p, Node.union u) ∈ itemsOf out) :
    ∀ v ∈ u.variants, v.ty ≠ .string ∧ (∀ t, v.ty ≠ .array t) ∧ ∀ b, v.ty ≠ .builtin b := by
  obtain ⟨groups, g1, g2, _⟩ := h
  obtain ⟨g, hg, hxg⟩ := List.mem_flatten.mp (Ir.holds_path g1 hx).1
  obtain ⟨p, _, el, hel, hem⟩ := Ir.all₂_right g2 hg
  cases hem with
  | union decl vs h =>
    simp only [List.mem_cons, List.not_mem_nil, or_false, reduceCtorEq, false_or, Node.union.injEq] at hxg
    subst hxg
    intro v hv
    obtain ⟨a, _, ty, hm, rfl⟩ := Ir.all₂_right h hv
    cases hm with
    | table q h => simp
    | custom q ct h => cases ct <;> simp [Ir.CustomType.ref]
  | _ => simp at hxg

section
variable [FloatText] {gm : Mode} {E : List Ast.Element} {out : List Node} {P : Program} {zs : List Item}

namespace Written

theorem lookup_resolve (X : Written gm E out P zs) {sc : Rs.Scope} (hsc : sc.Ok) {p m : List Str} {n : Str}
    (hl : Gen.lookup P.names sc.module p = some ⟨m, .type, n⟩) :
    p.head? ≠ some c!"Self" ∧ Rs.resolve P.forget sc p = some (.item m n) := by
  have hl' : Gen.lookup P.forget.names sc.module p = some ⟨m, .type, n⟩ := by rwa [names_forget]
  refine ⟨?_, Rs.resolve_lookup X.hygienic hsc hl'⟩
  cases p with
  | nil => simp
  | cons s p =>
    rintro ⟨⟩
    rcases Rs.lookup_head hl' with e | hm
    · cases e
    · exact X.hygienic.plain hm (by decide)

/-- A name of the own module. -/
theorem ownName (X : Written gm E out P zs) {sc : Rs.Scope} (hsc : sc.Ok) {n : Str}
    (hn : (⟨sc.module, .type, n⟩ : Gen.Item) ∈ P.names) : Rs.resolve P.forget sc [n] = some (.item sc.module n) := by
  refine (X.lookup_resolve hsc ?_).2
  rw [Gen.lookup, if_pos]
  refine ⟨?_, hn⟩
  rintro rfl
  exact X.setting.hygienic.plain hn (by decide)

/-- The item that is declared for an item of the schema. -/
theorem item (X : Written gm E out P zs) {x : List Ident × Node} (hx : x ∈ itemsOf out) {ys : List Item}
    (hy : Full.node gm x.2 = some ys) {y : Item} (hm : y ∈ ys) {n : Str} {gs : List GParam} (hd : y.declares = some (n, gs)) :
    File.item ⟨zs, P.forget⟩ (modOf x.2.ident) n = some y := by
  refine item_of X.erased (by rw [names_forget]; exact X.setting.nodup) (i := y) ?_ hd
  exact (flat_below X.nodes _).mpr ⟨x, hx, ys, hy, hm, (X.setting.path hx).symm⟩

theorem itemTable (X : Written gm E out P zs) {p : List Ident} {t : Ir.Table} (hx : (p, Node.table t) ∈ itemsOf out) :
    File.item ⟨zs, P.forget⟩ (modOf t.ident) (QIdent.simple t.ident) = some (Full.tableStruct (QIdent.simple t.ident) t.doc) := by
  obtain ⟨items, hi, -⟩ := Rs.emit_table X.setting.emitted hx
  have := (table_agree gm t).isSome
  rw [hi, Option.isSome_some, Option.isSome_iff_exists] at this
  obtain ⟨ys, hys⟩ := this
  have hd := fun {y n gs} => X.item hx (ys := ys) hys (y := y) (n := n) (gs := gs)
  simp only [Full.table, Option.bind_eq_bind, Option.bind_eq_some_iff, Option.pure_def, Option.some.injEq] at hys
  obtain ⟨n, hn, _, -, args, -, dflt, -, adds, -, consts, -, accs, -, rfl⟩ := hys
  obtain rfl := Gen.formatIdent_eq hn
  exact hd (y := Full.tableStruct (QIdent.simple t.ident) t.doc) (by simp) rfl

theorem itemEnum (X : Written gm E out P zs) {p : List Ident} {e : Ir.Enum} (hx : (p, Node.enum e) ∈ itemsOf out) :
    ∃ b vs, File.item ⟨zs, P.forget⟩ (modOf e.ident) (QIdent.simple e.ident) = some (Full.enumItem (QIdent.simple e.ident) b e.doc vs) := by
  obtain ⟨items, hi, -⟩ := Rs.emit_enum X.setting.emitted hx
  have := (enum_agree e).isSome
  rw [hi, Option.isSome_some, Option.isSome_iff_exists] at this
  obtain ⟨ys, hys⟩ := this
  have hd := fun {y n gs} => X.item hx (ys := ys) hys (y := y) (n := n) (gs := gs)
  simp only [Full.enum, Option.bind_eq_bind, Option.bind_eq_some_iff, Option.pure_def, Option.some.injEq] at hys
  obtain ⟨n, hn, vs, -, rfl⟩ := hys
  obtain rfl := Gen.formatIdent_eq hn
  exact ⟨_, _, hd List.mem_cons_self rfl⟩

theorem itemUnion (X : Written gm E out P zs) {p : List Ident} {u : Ir.Union} (hx : (p, Node.union u) ∈ itemsOf out) :
    ∃ vs, File.item ⟨zs, P.forget⟩ (modOf u.ident) (QIdent.simple u.ident) = some (Full.unionItem (QIdent.simple u.ident) u.doc vs) := by
  obtain ⟨items, hi, -⟩ := Rs.emit_union X.setting.emitted hx
  have := (union_agree u).isSome
  rw [hi, Option.isSome_some, Option.isSome_iff_exists] at this
  obtain ⟨ys, hys⟩ := this
  have hd := fun {y n gs} => X.item hx (ys := ys) hys (y := y) (n := n) (gs := gs)
  simp only [Full.union, Option.bind_eq_bind, Option.bind_eq_some_iff, Option.pure_def, Option.some.injEq] at hys
  obtain ⟨n, hn, e, -, vs, -, rfl⟩ := hys
  obtain rfl := Gen.formatIdent_eq hn
  exact ⟨_, hd List.mem_cons_self rfl⟩

/-- What types lead to has the traits that all of them have. -/
theorem known (X : Written gm E out P zs) {x : List Ident × Node} (hx : x ∈ itemsOf out) {sc : Rs.Scope} (hsc : sc.Ok)
    (hm : sc.module = modOf x.2.ident) : ∀ {ty : Ir.Ty}, DefinedTy out ty → (∀ q ∈ Gen.tyPaths ty, q ∈ Gen.paths x.2) →
      KnownTy ⟨zs, P.forget⟩ sc (QIdent.namespace x.2.ident) ty
  | .builtin _, _, _ | .string, _, _ | .array _, _, _ => trivial
  | .struct q fs, h, hp => (X.setting.hasTy (ty := .struct q fs) h).elim
  | .table q, h, hp => by
    have hl := (X.setting.leads x hx q (hp q (by simp [Gen.tyPaths]))).2
    rw [X.setting.path hx, ← hm] at hl
    obtain ⟨⟨p', y⟩, hy, hyd⟩ := h
    cases y <;> simp only [Node.defines, Option.some.injEq, Prod.mk.injEq, reduceCtorEq, and_false] at hyd
    obtain ⟨rfl, -⟩ := hyd
    obtain ⟨h1, h2⟩ := X.lookup_resolve hsc hl
    refine ⟨h1, _, _, _, h2, X.itemTable hy, ?_⟩
    simp only [Full.tableStruct, Item.typeAttrs]
    rw [derives_cons, derives_derive, derives_comment, List.append_nil]
    decide
  | .enum q vs b, h, hp => by
    have hl := (X.setting.leads x hx q (hp q (by simp [Gen.tyPaths]))).2
    rw [X.setting.path hx, ← hm] at hl
    obtain ⟨⟨p', y⟩, hy, hyd⟩ := h
    cases y <;> simp only [Node.defines, Option.some.injEq, Prod.mk.injEq, reduceCtorEq, and_false, Ir.CustomType.enum.injEq] at hyd
    obtain ⟨rfl, -⟩ := hyd
    obtain ⟨h1, h2⟩ := X.lookup_resolve hsc hl
    obtain ⟨b', vs', hi⟩ := X.itemEnum hy
    refine ⟨h1, _, _, _, h2, hi, ?_⟩
    simp only [Full.enumItem, Item.typeAttrs]
    rw [derives_append, derives_comment, List.append_nil]
    simp only [common, List.mem_cons, List.not_mem_nil, or_false]
    rintro d (rfl | rfl | rfl | rfl) <;> simp [derives, Full.deriveAttr]
  | .union q e vs, h, hp => by
    have hl := (X.setting.leads x hx q (hp q (by simp [Gen.tyPaths]))).2
    rw [X.setting.path hx, ← hm] at hl
    obtain ⟨⟨p', y⟩, hy, hyd⟩ := h
    cases y <;> simp only [Node.defines, Option.some.injEq, Prod.mk.injEq, reduceCtorEq, and_false, Ir.CustomType.union.injEq] at hyd
    obtain ⟨rfl, -⟩ := hyd
    obtain ⟨h1, h2⟩ := X.lookup_resolve hsc hl
    obtain ⟨vs', hi⟩ := X.itemUnion hy
    refine ⟨h1, _, _, _, h2, hi, ?_⟩
    simp only [Full.unionItem, Item.typeAttrs]
    rw [derives_cons, derives_derive, derives_comment, List.append_nil]
    decide

/-- What the code of a table relies on is there. -/
theorem tableTraits (X : Written gm E out P zs) {p : List Ident} {t : Ir.Table} (hx : (p, Node.table t) ∈ itemsOf out) :
    TableTraits ⟨zs, P.forget⟩ (modOf t.ident) (QIdent.simple t.ident) (QIdent.namespace t.ident) t.fields := by
  obtain ⟨items, hit, hp⟩ := Rs.emit_table X.setting.emitted hx
  have hp' : Rs.Placed P (modOf t.ident) items := by
    have := X.setting.path hx
    rw [this] at hp
    exact hp
  obtain ⟨args, dflt, adds, consts, accs, -, -, -, hd, -, -, -, rfl⟩ := Rs.emitTable_eq hit
  have hd : ∃ ds, dflt = [] ∨ dflt = [Rs.argsDefault (QIdent.simple t.ident) ds] := by
    rcases hd with ⟨-, hd⟩ | ⟨-, ds, -, hd⟩
    · exact ⟨[], .inl hd⟩
    · exact ⟨ds, .inr hd⟩
  obtain ⟨ds, hd⟩ := hd
  refine ⟨X.hygienic, ?_, ?_, ?_, ?_, ?_, ?_⟩
  · rintro sc hsc hm
    rw [← hm] at hp' ⊢
    exact X.ownName hsc (hp'.mem_names ⟨Rs.tableStruct (QIdent.simple t.ident), by simp [Rs.tableItems], rfl⟩)
  · rintro sc hsc hm
    rw [← hm] at hp' ⊢
    exact X.ownName hsc (hp'.mem_names ⟨.struct (QIdent.simple t.ident ++ c!"Args") [] args, by simp [Rs.tableItems], rfl⟩)
  · rintro sc hsc hm
    rw [← hm] at hp' ⊢
    exact X.ownName hsc (hp'.mem_names ⟨Rs.builderStruct (QIdent.simple t.ident), by simp [Rs.tableItems], rfl⟩)
  · simp only [itemOf_forget]
    exact ⟨_, Rs.table_item hp' X.setting.nodup hd⟩
  · simp only [itemOf_forget]
    exact ⟨_, Rs.args_item hp' X.setting.nodup hd⟩
  · intro f hf sc hsc hm
    have D := (Rs.table_defined X.setting.translates hx).2 f hf
    exact X.known hx hsc hm D fun q hq => List.mem_flatMap.mpr ⟨f, hf, List.mem_append_left _ hq⟩

theorem enumTraits (X : Written gm E out P zs) {p : List Ident} {e : Ir.Enum} (hx : (p, Node.enum e) ∈ itemsOf out) :
    EnumTraits ⟨zs, P.forget⟩ (modOf e.ident) (QIdent.simple e.ident) := by
  obtain ⟨items, hit, hp⟩ := Rs.emit_enum X.setting.emitted hx
  rw [X.setting.path hx] at hp
  simp only [Rs.emitEnum, Option.bind_eq_bind, Option.bind_eq_some_iff, Option.pure_def, Option.some.injEq] at hit
  obtain ⟨n, hn, vs, -, rfl⟩ := hit
  obtain rfl := Gen.formatIdent_eq hn
  refine ⟨X.hygienic, fun s => ?_, ?_⟩
  · exact X.ownName (sc := ⟨modOf e.ident, [], s⟩) (.inl rfl) (hp.mem_names ⟨_, List.mem_cons_self, rfl⟩)
  · simp only [itemOf_forget]
    exact ⟨_, _, Rs.enum_item hp X.setting.nodup⟩

theorem traits (X : Written gm E out P zs) : TraitsOk ⟨zs, P.forget⟩ := by
  rintro ⟨m, i⟩ hz
  obtain ⟨⟨p, x⟩, hx, ys, hys, hi, hm⟩ := (flat_below X.nodes _).mp hz
  simp only at hi hm
  rw [X.setting.path hx] at hm
  subst hm
  have hh := X.hygienic
  cases x with
  | table t => exact table_traits (X.tableTraits hx) hys i hi
  | «enum» e => exact enum_traits (X.enumTraits hx) hys i hi
  | union u =>
    obtain ⟨items, hit, hp⟩ := Rs.emit_union X.setting.emitted hx
    rw [X.setting.path hx] at hp
    simp only [Rs.emitUnion, Option.bind_eq_bind, Option.bind_eq_some_iff, Option.pure_def, Option.some.injEq] at hit
    obtain ⟨n, hn, e, -, vs, -, rfl⟩ := hit
    obtain rfl := Gen.formatIdent_eq hn
    have hD := (Rs.union_defined X.setting.translates hx).2
    refine union_traits (m := modOf u.ident) hh (fun s => ?_) (fun v hv => ⟨?_, union_members X.setting.translates hx v hv⟩) hys i hi
    · exact X.ownName (sc := ⟨modOf u.ident, [], s⟩) (.inl rfl) (hp.mem_names ⟨_, List.mem_cons_self, rfl⟩)
    · exact X.known hx (sc := ⟨modOf u.ident, [], none⟩) (.inl rfl) rfl (hD.1 v hv) fun q hq =>
        List.mem_cons_of_mem _ (List.mem_flatMap.mpr ⟨v, hv, hq⟩)
  | struct s => cases hys
  | rpc r => cases hys; cases hi
  | «namespace» i' ns => exact absurd (leavesL_isItem [] out _ hx) (by simp [Ir.Node.isItem])

end Written

end

end Butte.Src
