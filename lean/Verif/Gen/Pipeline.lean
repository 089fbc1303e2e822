import Verif.Gen.Evolve
import Verif.Gen.Paths
/-
From the output of the analysis to the tables that the generated code works with.
-/
namespace Butte.Gen
open Ir (QIdent Node Ident itemsOf Translates)

/-- The table defined by an item under the name `q`. -/
def tableAt (q : QIdent) (x : List Ident × Node) : Option Ir.Table :=
  match x.2 with
  | .table t => if t.ident = q then some t else none
  | _ => none

/-- The tables in the output of the analysis, by name. -/
def tablesOf (out : List Node) : Tables := fun q => (itemsOf out).findSome? (tableAt q)

theorem tableAt_some {q : QIdent} {x : List Ident × Node} {t : Ir.Table} (h : tableAt q x = some t) :
    x.2 = .table t ∧ t.ident = q := by
  unfold tableAt at h
  split at h
  · rename_i t' e
    split at h
    · rename_i hq
      cases h
      exact ⟨e, hq⟩
    · cases h
  · cases h

theorem tablesOf_some {out : List Node} {q : QIdent} {t : Ir.Table} (h : tablesOf out q = some t) :
    ∃ x ∈ itemsOf out, x.2 = .table t ∧ t.ident = q := by
  obtain ⟨x, hx, h⟩ := List.exists_of_findSome?_eq_some h
  exact ⟨x, hx, tableAt_some h⟩

theorem tablesOf_defined {out : List Node} {q : QIdent} {x : List Ident × Node} (hx : x ∈ itemsOf out)
    (h : x.2.defines = some (q, .table)) : ∃ t, tablesOf out q = some t := by
  cases ht : tablesOf out q with
  | some t => exact ⟨t, rfl⟩
  | none =>
    rw [tablesOf, List.findSome?_eq_none_iff] at ht
    have := ht x hx
    obtain ⟨p, n⟩ := x
    cases n with
    | table t => cases h; simp [tableAt] at this
    | _ => simp [Ir.Node.defines] at h

theorem tablesOf_mem {out : List Node} (hn : (((itemsOf out).filterMap fun x => x.2.defines).map (·.1)).Nodup)
    {p : List Ident} {t : Ir.Table} (h : (p, .table t) ∈ itemsOf out) : tablesOf out t.ident = some t := by
  unfold tablesOf
  generalize itemsOf out = l at hn h ⊢
  induction l with
  | nil => cases h
  | cons x l ih =>
    rw [List.findSome?_cons]
    rcases List.mem_cons.mp h with rfl | h
    · simp [tableAt]
    · cases hx : tableAt t.ident x with
      | none =>
        refine ih ?_ h
        rw [List.filterMap_cons] at hn
        split at hn
        · exact hn
        · exact (List.nodup_cons.mp hn).2
      | some t' =>
        exfalso
        obtain ⟨e1, e2⟩ := tableAt_some hx
        rw [List.filterMap_cons, e1] at hn
        simp only [Ir.Node.defines, List.map_cons, List.nodup_cons, e2] at hn
        exact hn.1 (List.mem_map.mpr ⟨(t.ident, .table), List.mem_filterMap.mpr ⟨_, h, rfl⟩, rfl⟩)

theorem means_table {N : Ir.Names} {ns : Option Ast.QIdent} {t : Ast.Ty} {q : QIdent} (h : Ir.Means N ns t (.table q)) :
    N.tab q ∨ N.dfn q .table := by
  generalize hty : Ir.Ty.table q = ty at h
  cases h with
  | table q' h => cases hty; exact .inl h
  | custom q' ct h =>
    cases ct <;> simp only [Ir.CustomType.ref, reduceCtorEq, Ir.Ty.table.injEq] at hty
    subst hty
    exact .inr h
  | _ => cases hty

theorem known_follow {S : Tables} {N : Ir.Names} (hN : ∀ q, N.tab q ∨ N.dfn q .table → ∃ t, S q = some t) :
    ∀ (ty : Ir.Ty) (F : FTy), followTy ty = some F → ∀ t ns, Ir.Means N ns t ty → Known S ty
  | .builtin b, _, _, _, _, _ => .builtin b
  | .string, _, _, _, _, _ => .string
  | .array t, F, h, a, ns, hm => by
    simp only [followTy, Option.bind_eq_bind, Option.bind_eq_some_iff] at h
    obtain ⟨e, he, _⟩ := h
    generalize hty : Ir.Ty.array t = ty at hm
    cases hm with
    | array hm => cases hty; exact .array (known_follow hN t e he _ _ hm)
    | custom q ct h => cases ct <;> cases hty
    | _ => cases hty
  | .table q, _, _, a, ns, hm => by
    obtain ⟨t, ht⟩ := hN q (means_table hm)
    exact .table ht
  | .struct .., _, h, _, _, _ => by cases h
  | .enum id vs b, _, _, _, _, _ => .enum id vs b
  | .union .., _, h, _, _, _ => by cases h

theorem mapM_mem {α β : Type} {f : α → Option β} : ∀ {l : List α} {r : List β}, l.mapM f = some r → ∀ x ∈ l, ∃ y, f x = some y
  | [], _, _, x, hx => by cases hx
  | a :: l, r, h, x, hx => by
    simp only [List.mapM_cons, Option.bind_eq_bind, Option.bind_eq_some_iff] at h
    obtain ⟨y, hy, r', hr, _⟩ := h
    rcases List.mem_cons.mp hx with rfl | hx
    · exact ⟨y, hy⟩
    · exact mapM_mem hr x hx

theorem all₂_get {α β : Type} {R : α → β → Prop} {l : List α} {r : List β} (h : Ir.All₂ R l r) : ∀ y ∈ r, ∃ x ∈ l, R x y := by
  intro y hy
  exact Ir.all₂_right h hy

theorem compileFields_kind {gm : Mode} : ∀ {i : Nat} {fs : List Ir.Field} {gs : List GField}, compileFields gm i fs = some gs →
    ∀ f ∈ fs, ∃ k, kindOf f.ty f.default = some k
  | _, [], _, _, f, hf => by cases hf
  | i, g :: fs, gs, h, f, hf => by
    simp only [compileFields, Option.bind_eq_bind, Option.bind_eq_some_iff] at h
    obtain ⟨k, hk, s, _, gs', hg, _⟩ := h
    rcases List.mem_cons.mp hf with rfl | hf
    · exact ⟨k, hk⟩
    · exact compileFields_kind hg f hf

theorem fields_mean {N : Ir.Names} {ns : Option Ast.QIdent} {fs : List Ast.Field} {gs : List Ir.Field}
    (h : Ir.FieldsMean N ns fs gs) : ∀ g ∈ gs, (∃ t, Ir.Means N ns t g.ty) ∨ ∃ e evs base, g.ty = .enum e evs base := by
  induction h with
  | nil => intro g hg; cases hg
  | plain _ hm _ _ ih =>
    intro g hg
    rcases List.mem_cons.mp hg with rfl | hg
    · exact .inl ⟨_, hm⟩
    · exact ih g hg
  | union _ hm _ _ ih =>
    intro g hg
    simp only [List.mem_cons] at hg
    rcases hg with rfl | rfl | hg
    · exact .inr ⟨_, _, _, rfl⟩
    · exact .inl ⟨_, hm⟩
    · exact ih g hg

/-- The output of the analysis is a schema that generated code can work with, provided its tables compile. -/
theorem translates_usable {E : List Ast.Element} {out : List Node} (h : Translates E out) (gm : Mode)
    (hc : ∀ p t, (p, Node.table t) ∈ itemsOf out → ∃ gs, compileTable gm t = some gs) : Usable gm (tablesOf out) := by
  intro q t hq
  obtain ⟨⟨p, n⟩, hx, e, rfl⟩ := tablesOf_some hq
  simp only at e
  subst e
  obtain ⟨gs, hgs⟩ := hc p t hx
  refine ⟨⟨gs, hgs⟩, ?_⟩
  obtain ⟨groups, g1, g2, _⟩ := h
  have hN : ∀ q, (Ir.Names.ofItems groups.flatten).tab q ∨ (Ir.Names.ofItems groups.flatten).dfn q .table →
      ∃ t, tablesOf out q = some t := by
    intro q hq
    have : ∃ n ∈ groups.flatten, n.defines = some (q, .table) := hq.elim id id
    obtain ⟨n, hn, hd⟩ := this
    exact tablesOf_defined (Ir.holds_mem g1 hn) hd
  have hfm : ∃ decl ns, Ir.FieldsMean (Ir.Names.ofItems groups.flatten) ns decl t.fields := by
    obtain ⟨g, hg, hxg⟩ := List.mem_flatten.mp (Ir.holds_path g1 hx).1
    obtain ⟨p, _, el, hel, hem⟩ := Ir.all₂_right g2 hg
    cases hem with
    | table decl fields root h =>
      simp only [List.mem_singleton, Node.table.injEq] at hxg
      subst hxg
      exact ⟨_, _, h⟩
    | _ => simp at hxg
  obtain ⟨decl, ns, hfm⟩ := hfm
  intro f hf
  have hk : ∃ k, kindOf f.ty f.default = some k := by
    unfold compileTable at hgs
    split at hgs
    · exact compileFields_kind hgs f hf
    · cases hgs
  obtain ⟨k, hk⟩ := hk
  rcases fields_mean hfm f hf with ⟨a, hm⟩ | ⟨e, evs, base, he⟩
  · obtain ⟨id, ty, d, req⟩ := f
    simp only at hk hm ⊢
    cases ty with
    | builtin b => exact .builtin b
    | string => exact .string
    | enum id vs b => exact .enum id vs b
    | struct q fs => cases d <;> cases hk
    | table q => exact known_follow hN _ _ rfl _ _ hm
    | array t =>
      cases d with
      | some d => cases hk
      | none =>
        simp only [kindOf, Option.bind_eq_bind, Option.bind_eq_some_iff] at hk
        obtain ⟨e, he, _⟩ := hk
        refine known_follow hN (.array t) (.fwdU (.vector e)) ?_ _ _ hm
        simp [followTy, he]
    | union u e vs =>
      obtain ⟨-, fs, hfs, -⟩ := kindOf_union_iff.mp hk
      refine .union fun v hv => ?_
      obtain ⟨F, hF⟩ := mapM_mem hfs v hv
      obtain ⟨m, hm', hmd⟩ := Ir.means_union hm
      obtain ⟨g, hg, hmg⟩ := List.mem_flatten.mp hm'
      obtain ⟨p, _, el, hel, hem⟩ := Ir.all₂_right g2 hg
      have : ∃ ns vs', Ir.All₂ (Ir.VariantMeans (Ir.Names.ofItems groups.flatten) ns) vs' vs := by
        cases hem with
        | union w ws h =>
          simp only [List.mem_cons, List.not_mem_nil, or_false] at hmg
          rcases hmg with rfl | rfl
          · simp [Ir.Node.defines] at hmd
          · simp only [Ir.Node.defines, Option.some.injEq, Prod.mk.injEq, Ir.CustomType.union.injEq] at hmd
            rw [← hmd.2.2]
            exact ⟨_, _, h⟩
        | _ =>
          simp only [List.mem_singleton] at hmg
          subst hmg
          simp [Ir.Node.defines] at hmd
      obtain ⟨ns', vs', hall⟩ := this
      obtain ⟨w, _, ty, hty, rfl⟩ := all₂_get hall v hv
      exact known_follow hN ty F hF _ _ hty
  · rw [he]
    exact .enum _ _ _

end Butte.Gen
