import Verif.Gen.Paths
import Verif.Ir.HeckLemmas
/-
Lemmas about the names introduced by the generated program.
-/
namespace Butte.Gen
open Ir (QIdent Node Ident itemsOf)

theorem snake_no_upper (s : Str) : ∀ c ∈ Heck.snake s, c.isUpper = false := by
  obtain ⟨ws, e, hw⟩ := Heck.snake_words s
  rw [e]
  clear e
  induction ws with
  | nil => intro c hc; cases hc
  | cons w ws ih =>
    have hws : ∀ w ∈ ws, Heck.Plain w := fun w h => hw w (List.mem_cons_of_mem _ h)
    have h1 : ∀ c ∈ w, c.isUpper = false := fun c hc => ((hw w List.mem_cons_self).2 c hc).2
    cases ws with
    | nil => simpa [Heck.joinWords] using h1
    | cons v ws =>
      intro c hc
      simp only [Heck.joinWords, List.mem_append, List.mem_cons] at hc
      rcases hc with hc | rfl | hc
      · exact h1 c hc
      · decide
      · exact ih hws c hc

/-- The names introduced by an item itself. -/
def own (path : List Str) (n : Node) : List Item := (emits path n).getD []

mutual
/-- The modules of a tree, each with its path. -/
def modPaths (P : List Ident) : Node → List (List Ident)
  | .namespace i ns => (P ++ [QIdent.simple i]) :: modPathsL (P ++ [QIdent.simple i]) ns
  | .table _ | .struct _ | .enum _ | .union _ | .rpc _ => []
/-- The modules of a list of nodes. -/
def modPathsL (P : List Ident) : List Node → List (List Ident)
  | [] => []
  | n :: ns => modPaths P n ++ modPathsL P ns
end

/-- The name a module introduces in its parent. -/
def modItem (p : List Ident) : Item := ⟨p.dropLast.map Heck.snake, .type, Heck.snake (QIdent.simple p)⟩

theorem modItem_concat (p : List Ident) (m : Ident) : modItem (p ++ [m]) = ⟨p.map Heck.snake, .type, Heck.snake m⟩ := by
  simp [modItem, QIdent.simple]

/-- The names of some items and modules. -/
def flat (xs : List (List Ident × Node)) (ms : List (List Ident)) : List Item :=
  xs.flatMap (fun x => own (x.1.map Heck.snake) x.2) ++ ms.map modItem

mutual
theorem emits_flat (P : List Ident) : ∀ (n : Node) (items : List Item), emits (P.map Heck.snake) n = some items →
    items.Perm (flat (n.leaves P) (modPaths P n))
  | .table t, items, h | .struct t, items, h | .enum t, items, h | .union t, items, h | .rpc t, items, h => by
    simp [flat, Ir.Node.leaves, modPaths, own, h]
  | .namespace i ns, items, h => by
    simp only [emits, Option.bind_eq_bind, Option.bind_eq_some_iff] at h
    obtain ⟨m, hm, l, hl, h⟩ := h
    cases h
    have hm := formatIdent_eq hm
    subst hm
    have := emitsAll_flat (P ++ [QIdent.simple i]) ns l (by simpa using hl)
    simp only [flat, Ir.Node.leaves, modPaths, List.map_cons, modItem_concat] at this ⊢
    exact (this.cons _).trans List.perm_middle.symm
theorem emitsAll_flat (P : List Ident) : ∀ (ns : List Node) (items : List Item),
    emitsAll (P.map Heck.snake) ns = some items → items.Perm (flat (Node.leavesL P ns) (modPathsL P ns))
  | [], items, h => by simp only [emitsAll, Option.some.injEq] at h; subst h; exact .nil
  | n :: ns, items, h => by
    simp only [emitsAll, Option.bind_eq_bind, Option.bind_eq_some_iff] at h
    obtain ⟨a, ha, b, hb, h⟩ := h
    cases h
    have h1 := emits_flat P n a ha
    have h2 := emitsAll_flat P ns b hb
    refine (h1.append h2).trans ?_
    simp only [flat, Ir.Node.leavesL, modPathsL, List.flatMap_append, List.map_append]
    simp only [List.append_assoc]
    refine List.Perm.append_left _ ?_
    rw [← List.append_assoc, ← List.append_assoc]
    exact List.Perm.append_right _ List.perm_append_comm
end

mutual
theorem modPaths_under (P : List Ident) : ∀ (n : Node), ∀ p ∈ modPaths P n, ∃ m t, n = .namespace m t ∧ P ++ [QIdent.simple m] <+: p
  | .namespace i ns, p, hp => by
    simp only [modPaths, List.mem_cons] at hp
    rcases hp with rfl | hp
    · exact ⟨i, ns, rfl, List.prefix_rfl⟩
    · obtain ⟨m, _, h⟩ := modPathsL_under (P ++ [QIdent.simple i]) ns p hp
      exact ⟨i, ns, rfl, (List.prefix_append _ _).trans h⟩
  | .table _, p, hp | .struct _, p, hp | .enum _, p, hp | .union _, p, hp | .rpc _, p, hp => by cases hp
theorem modPathsL_under (P : List Ident) : ∀ (ns : List Node), ∀ p ∈ modPathsL P ns,
    ∃ m, m ∈ Node.modules ns ∧ P ++ [m] <+: p
  | [], p, hp => by cases hp
  | n :: ns, p, hp => by
    simp only [modPathsL, List.mem_append] at hp
    rcases hp with hp | hp
    · obtain ⟨m, t, rfl, h⟩ := modPaths_under P n p hp
      exact ⟨_, List.mem_cons_self, h⟩
    · obtain ⟨m, hm, h⟩ := modPathsL_under P ns p hp
      refine ⟨m, ?_, h⟩
      cases n <;> first | exact hm | exact List.mem_cons_of_mem _ hm
end

mutual
theorem modPaths_nodup (P : List Ident) : ∀ (n : Node), n.Proper P → (modPaths P n).Nodup
  | .namespace i ns, h => by
    simp only [Ir.Node.Proper] at h
    obtain ⟨_, _, h2, h3⟩ := h
    simp only [modPaths, List.nodup_cons]
    refine ⟨fun hm => ?_, modPathsL_nodup _ ns h2 h3⟩
    obtain ⟨m, _, h⟩ := modPathsL_under _ ns _ hm
    have := h.length_le
    simp at this
  | .table _, _ | .struct _, _ | .enum _, _ | .union _, _ | .rpc _, _ => List.nodup_nil
theorem modPathsL_nodup (P : List Ident) : ∀ (ns : List Node), (Node.modules ns).Nodup → Node.ProperL P ns →
    (modPathsL P ns).Nodup
  | [], _, _ => List.nodup_nil
  | n :: ns, hm, hp => by
    simp only [Ir.Node.ProperL] at hp
    have hm' : (Node.modules ns).Nodup := by
      cases n <;> first | exact hm | exact (List.nodup_cons.mp hm).2
    simp only [modPathsL]
    refine List.nodup_append.mpr ⟨modPaths_nodup P n hp.1, modPathsL_nodup P ns hm' hp.2, ?_⟩
    rintro p h1 p' h2 rfl
    obtain ⟨m, t, rfl, h3⟩ := modPaths_under P n p h1
    obtain ⟨m', hm'', h2⟩ := modPathsL_under P ns p h2
    have := List.prefix_of_prefix_length_le h3 h2 (by simp)
    rw [List.prefix_append_right_inj] at this
    simp at this
    exact (List.nodup_cons.mp hm).1 (this ▸ hm'')
end

mutual
theorem leaves_ne (P : List Ident) : ∀ (n : Node), n.Proper P → n.leaves P ≠ []
  | .namespace i ns, h => by
    simp only [Ir.Node.Proper] at h
    exact leavesL_ne _ ns h.2.1 h.2.2.2
  | .table _, _ | .struct _, _ | .enum _, _ | .union _, _ | .rpc _, _ => by simp [Ir.Node.leaves]
theorem leavesL_ne (P : List Ident) : ∀ (ns : List Node), ns ≠ [] → Node.ProperL P ns → Node.leavesL P ns ≠ []
  | [], h, _ => absurd rfl h
  | n :: ns, _, hp => by
    simp only [Ir.Node.ProperL] at hp
    simp only [Ir.Node.leavesL]
    exact fun h => leaves_ne P n hp.1 (List.append_eq_nil_iff.mp h).1
end

mutual
theorem modPaths_leaf (P : List Ident) : ∀ (n : Node), n.Proper P → ∀ p ∈ modPaths P n, ∃ x ∈ n.leaves P, p <+: x.1
  | .namespace i ns, h, p, hp => by
    simp only [Ir.Node.Proper] at h
    simp only [modPaths, List.mem_cons] at hp
    simp only [Ir.Node.leaves]
    rcases hp with rfl | hp
    · obtain ⟨x, hx⟩ := List.exists_mem_of_ne_nil _ (leavesL_ne _ ns h.2.1 h.2.2.2)
      exact ⟨x, hx, leavesL_under _ ns x hx⟩
    · exact modPathsL_leaf _ ns h.2.2.2 p hp
  | .table _, _, p, hp | .struct _, _, p, hp | .enum _, _, p, hp | .union _, _, p, hp | .rpc _, _, p, hp => by cases hp
theorem modPathsL_leaf (P : List Ident) : ∀ (ns : List Node), Node.ProperL P ns → ∀ p ∈ modPathsL P ns,
    ∃ x ∈ Node.leavesL P ns, p <+: x.1
  | [], _, p, hp => by cases hp
  | n :: ns, h, p, hp => by
    simp only [Ir.Node.ProperL] at h
    simp only [modPathsL, Ir.Node.leavesL, List.mem_append] at hp ⊢
    rcases hp with hp | hp
    · obtain ⟨x, hx, e⟩ := modPaths_leaf P n h.1 p hp
      exact ⟨x, .inl hx, e⟩
    · obtain ⟨x, hx, e⟩ := modPathsL_leaf P ns h.2 p hp
      exact ⟨x, .inr hx, e⟩
end

mutual
theorem leaf_modPaths (P : List Ident) : ∀ (n : Node), ∀ x ∈ n.leaves P, ∀ p m, p ++ [m] <+: x.1 → P <+: p → p ++ [m] ∈ modPaths P n
  | .namespace i ns, x, hx, p, m, hp, hP => by
    simp only [Ir.Node.leaves] at hx
    simp only [modPaths, List.mem_cons]
    rcases prefix_cases (leavesL_under _ ns x hx) hp hP with ⟨rfl, rfl⟩ | h
    · exact .inl rfl
    · exact .inr (leaf_modPathsL _ ns x hx p m hp h)
  | .table _, x, hx, p, m, hp, hP | .struct _, x, hx, p, m, hp, hP | .enum _, x, hx, p, m, hp, hP
  | .union _, x, hx, p, m, hp, hP | .rpc _, x, hx, p, m, hp, hP => by
    simp only [Ir.Node.leaves, List.mem_singleton] at hx
    subst hx
    have := hp.length_le
    have := hP.length_le
    simp at *
    omega
theorem leaf_modPathsL (P : List Ident) : ∀ (ns : List Node), ∀ x ∈ Node.leavesL P ns, ∀ p m, p ++ [m] <+: x.1 → P <+: p →
    p ++ [m] ∈ modPathsL P ns
  | [], x, hx, p, m, hp, hP => by cases hx
  | n :: ns, x, hx, p, m, hp, hP => by
    simp only [modPathsL, Ir.Node.leavesL, List.mem_append] at hx ⊢
    rcases hx with hx | hx
    · exact .inl (leaf_modPaths P n x hx p m hp hP)
    · exact .inr (leaf_modPathsL P ns x hx p m hp hP)
end

mutual
theorem emits_no_struct (P : List Ident) : ∀ (n : Node) (Q : List Str) (items : List Item), emits Q n = some items →
    ∀ x ∈ n.leaves P, ∀ s, x.2 ≠ .struct s
  | .namespace i ns, Q, items, h, x, hx, s => by
    simp only [emits, Option.bind_eq_bind, Option.bind_eq_some_iff] at h
    obtain ⟨m, hm, l, hl, h⟩ := h
    exact emitsAll_no_struct _ ns _ _ hl x hx s
  | .struct _, _, _, h, _, _, _ => by cases h
  | .table _, _, _, _, x, hx, s | .enum _, _, _, _, x, hx, s | .union _, _, _, _, x, hx, s | .rpc _, _, _, _, x, hx, s => by
    simp only [Ir.Node.leaves, List.mem_singleton] at hx
    subst hx
    simp
theorem emitsAll_no_struct (P : List Ident) : ∀ (ns : List Node) (Q : List Str) (items : List Item), emitsAll Q ns = some items →
    ∀ x ∈ Node.leavesL P ns, ∀ s, x.2 ≠ .struct s
  | [], _, _, _, x, hx, s => by cases hx
  | n :: ns, Q, items, h, x, hx, s => by
    simp only [emitsAll, Option.bind_eq_bind, Option.bind_eq_some_iff] at h
    obtain ⟨a, ha, b, hb, _⟩ := h
    simp only [Ir.Node.leavesL, List.mem_append] at hx
    rcases hx with hx | hx
    · exact emits_no_struct P n Q a ha x hx s
    · exact emitsAll_no_struct P ns Q b hb x hx s
end

theorem own_defines {P : List Str} {n : Node} {q : QIdent} {ct : Ir.CustomType} (h : n.defines = some (q, ct))
    (hs : ∀ s, n ≠ .struct s) : (⟨P, .type, QIdent.simple q⟩ : Item) ∈ own P n := by
  cases n with
  | struct s => exact absurd rfl (hs s)
  | table t => cases h; exact List.mem_cons_self
  | enum e => cases h; exact List.mem_cons_self
  | union u => cases h; exact List.mem_cons_self
  | rpc r => cases h
  | «namespace» i ns => cases h

end Butte.Gen
