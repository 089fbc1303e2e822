import Verif.Gen.Program
import Verif.Ir.Companion
/-
Lemmas about the paths in the generated program.
-/
namespace Butte.Gen
open Ir (QIdent Node itemsOf Translates NoDangling)

theorem tyPaths_mentions (ty : Ir.Ty) : ∀ q ∈ tyPaths ty, q ∈ ty.mentions := by
  fun_induction tyPaths ty <;> simp_all [Ir.Ty.mentions]

/-- Whatever is named in the code of an item is defined by an item. -/
theorem paths_defined {E : List Ast.Element} {out : List Node} (h : Translates E out) {x : List Ir.Ident × Node}
    (hx : x ∈ itemsOf out) {q : QIdent} (hq : q ∈ paths x.2) : ∃ y ∈ itemsOf out, ∃ ct, y.2.defines = some (q, ct) := by
  have hd := Ir.translates_noDangling h
  obtain ⟨path, n⟩ := x
  cases n with
  | table t =>
    obtain ⟨f, hf, hq⟩ := List.mem_flatMap.mp hq
    have hm : ∀ q ∈ f.ty.mentions, ∃ y ∈ itemsOf out, ∃ ct, y.2.defines = some (q, ct) :=
      fun q hq => hd _ hx q (List.mem_flatMap.mpr ⟨f, hf, hq⟩)
    rcases List.mem_append.mp hq with hq | hq
    · exact hm q (tyPaths_mentions _ q hq)
    · obtain ⟨groups, g1, g2, _⟩ := h
      obtain ⟨id, ty, d, req⟩ := f
      cases ty with
      | union u e vs =>
        simp only [List.mem_cons] at hq
        rcases hq with rfl | rfl | hq
        · exact hm _ (by simp [Ir.Ty.mentions])
        · exact hm _ (by simp [Ir.Ty.mentions])
        · obtain ⟨v, hv, hq⟩ := List.mem_flatMap.mp hq
          obtain ⟨g, hg, hxg⟩ := List.mem_flatten.mp (Ir.holds_path g1 hx).1
          obtain ⟨p, _, el, hel, hem⟩ := Ir.all₂_right g2 hg
          have : ∃ decl ns, Ir.FieldsMean (Ir.Names.ofItems groups.flatten) ns decl t.fields := by
            cases hem with
            | table decl fields root h =>
              simp only [List.mem_singleton, Node.table.injEq] at hxg
              subst hxg
              exact ⟨_, _, h⟩
            | _ => simp at hxg
          obtain ⟨decl, ns, hfm⟩ := this
          obtain ⟨i, hi⟩ := List.mem_iff_getElem?.mp hf
          obtain ⟨_, _, _, _, hmean, _⟩ := Ir.fields_union hfm i id u e vs d req _ hi
          obtain ⟨m, hm', hmd⟩ := Ir.means_union hmean
          have hmu : ∃ dc, m = .union ⟨u, e, vs, dc⟩ := by
            cases m with
            | union w =>
              obtain ⟨a, b, c, dc⟩ := w
              simp only [Ir.Node.defines, Option.some.injEq, Prod.mk.injEq, Ir.CustomType.union.injEq] at hmd
              obtain ⟨rfl, rfl, rfl⟩ := hmd
              exact ⟨dc, rfl⟩
            | _ => simp [Ir.Node.defines] at hmd
          obtain ⟨dc, rfl⟩ := hmu
          refine hd _ (Ir.holds_mem g1 hm') q ?_
          simp only [Ir.Node.mentions]
          exact List.mem_cons_of_mem _ (List.mem_flatMap.mpr ⟨v, hv, tyPaths_mentions _ q hq⟩)
      | _ => cases hq
  | union u =>
    refine hd _ hx q ?_
    rcases List.mem_cons.mp hq with rfl | hq
    · exact List.mem_cons_self
    · obtain ⟨v, hv, hq⟩ := List.mem_flatMap.mp hq
      exact List.mem_cons_of_mem _ (List.mem_flatMap.mpr ⟨v, hv, tyPaths_mentions _ q hq⟩)
  | _ => cases hq

theorem formatIdent_eq {s m : Str} (h : formatIdent s = some m) : m = s := by
  unfold formatIdent at h
  split at h
  · cases h
  · split at h
    · cases h
    · cases h; rfl

mutual
theorem emits_defines (P : List Ir.Ident) : ∀ (n : Node) (items : List Item), emits (P.map Heck.snake) n = some items →
    ∀ x ∈ n.leaves P, ∀ q ct, x.2.defines = some (q, ct) → (⟨x.1.map Heck.snake, .type, QIdent.simple q⟩ : Item) ∈ items
  | .table t, items, h, x, hx, q, ct, hd => by
    simp only [emits, Option.some.injEq] at h
    subst h
    simp only [Ir.Node.leaves, List.mem_singleton] at hx
    subst hx
    simp only [Ir.Node.defines, Option.some.injEq, Prod.mk.injEq] at hd
    obtain ⟨rfl, _⟩ := hd
    simp
  | .struct s, items, h, x, hx, q, ct, hd => by simp [emits] at h
  | .enum e, items, h, x, hx, q, ct, hd => by
    simp only [emits, Option.some.injEq] at h
    subst h
    simp only [Ir.Node.leaves, List.mem_singleton] at hx
    subst hx
    simp only [Ir.Node.defines, Option.some.injEq, Prod.mk.injEq] at hd
    obtain ⟨rfl, _⟩ := hd
    simp
  | .union u, items, h, x, hx, q, ct, hd => by
    simp only [emits, Option.some.injEq] at h
    subst h
    simp only [Ir.Node.leaves, List.mem_singleton] at hx
    subst hx
    simp only [Ir.Node.defines, Option.some.injEq, Prod.mk.injEq] at hd
    obtain ⟨rfl, _⟩ := hd
    simp
  | .rpc r, items, h, x, hx, q, ct, hd => by
    simp only [Ir.Node.leaves, List.mem_singleton] at hx
    subst hx
    simp [Ir.Node.defines] at hd
  | .namespace i ns, items, h, x, hx, q, ct, hd => by
    simp only [emits, Option.bind_eq_bind, Option.bind_eq_some_iff] at h
    obtain ⟨m, hm, l, hl, h⟩ := h
    cases h
    rw [formatIdent_eq hm] at hl
    simp only [Ir.Node.leaves] at hx
    have := emitsAll_defines (P ++ [QIdent.simple i]) ns l (by simpa using hl) x hx q ct hd
    exact List.mem_cons_of_mem _ this
theorem emitsAll_defines (P : List Ir.Ident) : ∀ (ns : List Node) (items : List Item),
    emitsAll (P.map Heck.snake) ns = some items →
    ∀ x ∈ Node.leavesL P ns, ∀ q ct, x.2.defines = some (q, ct) →
      (⟨x.1.map Heck.snake, .type, QIdent.simple q⟩ : Item) ∈ items
  | [], items, h, x, hx, q, ct, hd => by simp [Ir.Node.leavesL] at hx
  | n :: ns, items, h, x, hx, q, ct, hd => by
    simp only [emitsAll, Option.bind_eq_bind, Option.bind_eq_some_iff] at h
    obtain ⟨a, ha, b, hb, h⟩ := h
    cases h
    simp only [Ir.Node.leavesL, List.mem_append] at hx ⊢
    rcases hx with hx | hx
    · exact .inl (emits_defines P n a ha x hx q ct hd)
    · exact .inr (emitsAll_defines P ns b hb x hx q ct hd)
end

theorem defines_ident {n : Node} {q : QIdent} {ct : Ir.CustomType} (h : n.defines = some (q, ct)) : n.ident = q := by
  cases n <;> simp only [Ir.Node.defines, Option.some.injEq, Prod.mk.injEq, reduceCtorEq] at h <;>
    · obtain ⟨rfl, _⟩ := h
      rfl

mutual
theorem leaves_under (P : List Ir.Ident) : ∀ (n : Node), ∀ x ∈ n.leaves P, P <+: x.1
  | .namespace i ns, x, hx => (List.prefix_append _ _).trans (leavesL_under (P ++ [QIdent.simple i]) ns x hx)
  | .table _, x, hx | .struct _, x, hx | .enum _, x, hx | .union _, x, hx | .rpc _, x, hx => by
    simp only [Ir.Node.leaves, List.mem_singleton] at hx
    subst hx
    exact List.prefix_rfl
theorem leavesL_under (P : List Ir.Ident) : ∀ (ns : List Node), ∀ x ∈ Node.leavesL P ns, P <+: x.1
  | [], x, hx => by simp [Ir.Node.leavesL] at hx
  | n :: ns, x, hx => by
    simp only [Ir.Node.leavesL, List.mem_append] at hx
    exact hx.elim (leaves_under P n x) (leavesL_under P ns x)
end

theorem prefix_cases {α : Type} {P pre r : List α} {s m : α} (h1 : P ++ [m] <+: r) (h2 : pre ++ [s] <+: r) (h3 : P <+: pre) :
    pre = P ∧ s = m ∨ P ++ [m] <+: pre := by
  obtain ⟨t, rfl⟩ := h3
  cases t with
  | nil =>
    have := List.prefix_of_prefix_length_le h2 h1 (by simp)
    rw [List.append_nil, List.prefix_append_right_inj] at this
    simp at this
    exact .inl ⟨by simp, this⟩
  | cons a t =>
    right
    have h : P ++ [m] <+: P ++ (a :: t ++ [s]) :=
      List.prefix_of_prefix_length_le h1 (by simpa using h2) (by simp)
    rw [List.prefix_append_right_inj] at h ⊢
    simp only [List.cons_append, List.cons_prefix_cons, List.nil_prefix, and_true] at h ⊢
    exact h

mutual
theorem emits_modules (P : List Ir.Ident) : ∀ (n : Node) (items : List Item), emits (P.map Heck.snake) n = some items →
    ∀ x ∈ n.leaves P, ∀ pre s, pre ++ [s] <+: x.1 → P <+: pre → (⟨pre.map Heck.snake, .type, Heck.snake s⟩ : Item) ∈ items
  | .table _, _, _, x, hx, pre, s, hp, hP | .struct _, _, _, x, hx, pre, s, hp, hP | .enum _, _, _, x, hx, pre, s, hp, hP
  | .union _, _, _, x, hx, pre, s, hp, hP | .rpc _, _, _, x, hx, pre, s, hp, hP => by
    simp only [Ir.Node.leaves, List.mem_singleton] at hx
    subst hx
    have := hp.length_le
    have := hP.length_le
    simp at *
    omega
  | .namespace i ns, items, h, x, hx, pre, s, hp, hP => by
    simp only [emits, Option.bind_eq_bind, Option.bind_eq_some_iff] at h
    obtain ⟨m, hm, l, hl, h⟩ := h
    cases h
    have hm := formatIdent_eq hm
    subst hm
    simp only [Ir.Node.leaves] at hx
    rcases prefix_cases (leavesL_under _ ns x hx) hp hP with ⟨rfl, rfl⟩ | h
    · exact List.mem_cons_self
    · exact List.mem_cons_of_mem _ (emitsAll_modules (P ++ [QIdent.simple i]) ns l (by simpa using hl) x hx pre s hp h)
theorem emitsAll_modules (P : List Ir.Ident) : ∀ (ns : List Node) (items : List Item),
    emitsAll (P.map Heck.snake) ns = some items →
    ∀ x ∈ Node.leavesL P ns, ∀ pre s, pre ++ [s] <+: x.1 → P <+: pre →
      (⟨pre.map Heck.snake, .type, Heck.snake s⟩ : Item) ∈ items
  | [], items, h, x, hx, pre, s, hp, hP => by simp [Ir.Node.leavesL] at hx
  | n :: ns, items, h, x, hx, pre, s, hp, hP => by
    simp only [emitsAll, Option.bind_eq_bind, Option.bind_eq_some_iff] at h
    obtain ⟨a, ha, b, hb, h⟩ := h
    cases h
    simp only [Ir.Node.leavesL, List.mem_append] at hx ⊢
    rcases hx with hx | hx
    · exact .inl (emits_modules P n a ha x hx pre s hp hP)
    · exact .inr (emitsAll_modules P ns b hb x hx pre s hp hP)
end

end Butte.Gen
