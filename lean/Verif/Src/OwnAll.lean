import Verif.Src.OwnItems
import Verif.Src.TraitsAll
/-
The generated files keep the rules for ownership.
-/
namespace Butte.Src
open Ir (QIdent Node Ident itemsOf)
open Rs (Program Setting modOf)

section
variable [FloatText] {gm : Mode} {E : List Ast.Element} {out : List Node} {P : Program} {zs : List Item}

omit [FloatText] in
theorem accessor_shape {n : Str} {ns : Option QIdent} {f : Ir.Field} {a : Fn} (h : Full.accessor n ns f = some a) :
    a.name = Heck.snake f.ident ∧ a.params.head? = some (.refSelf false) := by
  simp only [Full.accessor, Option.bind_eq_bind, Option.bind_eq_some_iff, Option.pure_def, Option.some.injEq] at h
  obtain ⟨snake, hs, ret, hret, w, hw, d, hd, h⟩ := h
  obtain rfl := Gen.formatIdent_eq hs
  split at h
  · simp only [Option.bind_eq_some_iff, Option.some.injEq] at h
    obtain ⟨b, hb, rfl⟩ := h
    exact ⟨rfl, rfl⟩
  · cases h
    exact ⟨rfl, rfl⟩

omit [FloatText] in
theorem addMethod_shape {n : Str} {ns : Option QIdent} {f : Ir.Field} {a : Fn} (h : Full.addMethod n ns f = some a) :
    a.name = Rs.addName f ∧ a.params.head? = some (.refSelf true) := by
  simp only [Full.addMethod, Option.bind_eq_bind, Option.bind_eq_some_iff, Option.pure_def, Option.some.injEq] at h
  obtain ⟨t, ht, b, hb, rfl⟩ := h
  exact ⟨rfl, rfl⟩

namespace Written

/-- What the code of a table relies on is there. -/
theorem tableOwn (X : Written gm E out P zs) {p : List Ident} {t : Ir.Table} (hx : (p, Node.table t) ∈ itemsOf out)
    (hc : ∃ gs, Gen.compileTable gm t = some gs) {ys : List Item} (hys : Full.table gm t = some ys) {adds accs : List Fn}
    (hadd : t.fields.mapM (Full.addMethod (QIdent.simple t.ident) (QIdent.namespace t.ident)) = some adds)
    (hacc : t.fields.mapM (Full.accessor (QIdent.simple t.ident) (QIdent.namespace t.ident)) = some accs) :
    TableOwn ⟨zs, P.forget⟩ (modOf t.ident) (QIdent.simple t.ident) (QIdent.namespace t.ident) t.fields adds accs := by
  have hd := fun {y n gs} => X.item hx (ys := ys) hys (y := y) (n := n) (gs := gs)
  have hf : ∀ y ∈ ys, (modOf t.ident, y) ∈ flatItems [] zs := fun y hy =>
    (flat_below X.nodes _).mpr ⟨_, hx, ys, hys, hy, (X.setting.path hx).symm⟩
  simp only [Full.table, Option.bind_eq_bind, Option.bind_eq_some_iff, Option.pure_def, Option.some.injEq] at hys
  obtain ⟨n, hn, _, -, args, ha, dflt, -, adds', hadd', consts, -, accs', hacc', rfl⟩ := hys
  obtain rfl := Gen.formatIdent_eq hn
  rw [hadd] at hadd'
  rw [hacc] at hacc'
  cases hadd'
  cases hacc'
  obtain ⟨gs, hc⟩ := hc
  unfold Gen.compileTable at hc
  split at hc
  · rename_i hok
    simp only [Gen.namesOk, Bool.and_eq_true, List.all_eq_true, List.mem_map, forall_exists_index, and_imp,
      forall_apply_eq_imp_iff₂] at hok
    obtain ⟨⟨⟨⟨-, hids⟩, -⟩, -⟩, htags⟩ := hok
    refine ⟨X.tableTraits hx, ⟨_, X.itemTable hx⟩, ⟨args, hd (y := Full.argsStruct (QIdent.simple t.ident) t.fields args) (by simp) rfl, ?_⟩,
      hd (y := Full.builderStruct (QIdent.simple t.ident)) (by simp) rfl, hf _ (by simp), hf _ (by simp), ?_, ?_, ?_⟩
    · intro f hf
      obtain ⟨x, hxa, hxf⟩ := mapM_image ha f hf
      refine ⟨x, hxa, ?_⟩
      simp only [Full.argField, Option.bind_eq_bind, Option.bind_eq_some_iff, Option.pure_def, Option.some.injEq] at hxf
      obtain ⟨t', ht', doc, -, rfl⟩ := hxf
      exact ⟨rfl, rfl, t', ht', rfl⟩
    · intro f hf
      obtain ⟨x, hxa, hxf⟩ := mapM_image hadd f hf
      exact ⟨x, hxa, addMethod_shape hxf⟩
    · intro f hf hu
      have := htags f hf
      unfold Gen.unionTagOk at this
      split at this
      · simp only [List.any_eq_true, Bool.and_eq_true, beq_iff_eq] at this
        obtain ⟨g, hg, ⟨hgn, -⟩, -⟩ := this
        obtain ⟨x, hxa, hxf⟩ := mapM_image hacc g hg
        rw [← hgn]
        exact ⟨x, hxa, accessor_shape hxf⟩
      · rename_i hne
        cases hty : f.ty <;> simp [hty, Ir.Ty.isUnion] at hu
        exact absurd hty (hne _ _ _)
    · intro f hf he
      have := hids f hf
      rw [he] at this
      exact absurd this (by decide)
  · cases hc

theorem owns (X : Written gm E out P zs)
    (hc : ∀ p t, (p, Node.table t) ∈ itemsOf out → ∃ gs, Gen.compileTable gm t = some gs) : OwnOk ⟨zs, P.forget⟩ := by
  rintro ⟨m, i⟩ hz
  obtain ⟨⟨p, x⟩, hx, ys, hys, hi, hm⟩ := (flat_below X.nodes _).mp hz
  simp only at hi hm
  rw [X.setting.path hx] at hm
  subst hm
  cases x with
  | table t => exact table_own hys (fun adds accs h1 h2 => X.tableOwn hx (hc p t hx) hys h1 h2) i hi
  | «enum» e =>
    refine enum_own ?_ hys i hi
    obtain ⟨b, vs, hi⟩ := X.itemEnum hx
    have T := X.enumTraits hx
    refine .item (T.own none) ?_ hi ?_ (by simp [argTys])
    · intro h
      simp only [List.head?_cons, Option.some.injEq] at h
      have := T.own none
      rw [h] at this
      simp [Rs.resolve] at this
    · simp only [Full.enumItem, Item.typeAttrs]
      rw [derives_append, derives_comment, List.append_nil]
      simp [derives, Full.deriveAttr]
  | union u => exact union_own hys i hi
  | struct s => cases hys
  | rpc r => cases hys; cases hi
  | «namespace» i' ns => exact absurd (leavesL_isItem [] out _ hx) (by simp [Ir.Node.isItem])

end Written

end

end Butte.Src
