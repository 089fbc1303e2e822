import Verif.Ir.Resolve
import Verif.Ir.Arrange
/-
What an accepted schema gives, from the invariant of the analysis.
-/
namespace Butte.Ir
open Ast (Element)

/-- The tree `out` holds exactly the items `items`, each inside the modules that spell its namespace, in order. -/
def HoldsItems (out items : List Node) : Prop :=
  (∀ path, ((Node.leavesL [] out).filter fun x => x.1 == path).map (·.2) =
    items.filter fun n => n.ident.dropLast == path) ∧
  Node.ProperL [] out ∧ (Node.modules out).Nodup

/-- The positions of the declarations of a schema, in order. -/
def declPositions (E : List Element) : List Nat := (List.range E.length).filter fun p => E[p]?.any declares

theorem mem_declPositions {E : List Element} {p : Nat} :
    p ∈ declPositions E ↔ ∃ el, E[p]? = some el ∧ declares el = true := by
  unfold declPositions
  rw [List.mem_filter, List.mem_range, Option.any_eq_true]
  constructor
  · rintro ⟨_, h⟩; exact h
  · rintro ⟨el, h1, h2⟩; exact ⟨(List.getElem?_eq_some_iff.mp h1).1, el, h1, h2⟩

theorem sorted_ext : ∀ {a b : List Nat}, a.Pairwise (· < ·) → b.Pairwise (· < ·) → (∀ x, x ∈ a ↔ x ∈ b) → a = b
  | [], [], _, _, _ => rfl
  | [], b :: bs, _, _, h => absurd ((h b).mpr (by simp)) (by simp)
  | a :: as, [], _, _, h => absurd ((h a).mp (by simp)) (by simp)
  | a :: as, b :: bs, ha, hb, h => by
    rw [List.pairwise_cons] at ha hb
    have e : a = b := by
      rcases List.mem_cons.mp ((h a).mp (by simp)) with e | e
      · exact e
      · rcases List.mem_cons.mp ((h b).mpr (by simp)) with e' | e'
        · exact e'.symm
        · have := hb.1 a e; have := ha.1 b e'; omega
    subst e
    rw [sorted_ext ha.2 hb.2]
    intro x
    constructor
    · intro hx
      rcases List.mem_cons.mp ((h x).mp (by simp [hx])) with e | e
      · subst e; have := ha.1 x hx; omega
      · exact e
    · intro hx
      rcases List.mem_cons.mp ((h x).mpr (by simp [hx])) with e | e
      · subst e; have := hb.1 x hx; omega
      · exact e

theorem build_ok {s : Ast.Schema} {out : List Node} (h : build s = some (.ok out)) :
    ∃ c, Run s.elements (NsOk s.elements) c (fun _ => False) ∧ out = arrange c.items := by
  unfold build at h
  obtain ⟨r, h1, h2⟩ := Option.map_eq_some_iff.mp h
  have := build_run (E := s.elements) (J := fun _ => True) (fun _ _ => True) trivial (fun _ _ _ _ _ _ _ _ _ _ => trivial)
    (fun _ _ => trivial) (fun _ _ _ _ _ _ _ => trivial) _ r h1
  cases r with
  | err e => cases h2
  | panic => cases h2
  | ok c =>
    cases h2
    rcases this with h | ⟨_, _, _, _, _, h⟩
    · exact ⟨c, h, rfl⟩
    · cases h

/-- Marking root tables. -/
def markRoot (roots : List QIdent) : Node → Node
  | .table t => if t.ident ∈ roots then .table { t with rootType := true } else .table t
  | n => n

theorem items_eq (c : Ctx) : c.items = (c.nodes.flatMap (·.2)).map (markRoot c.roots) := by
  unfold Ctx.items
  apply List.map_congr_left
  intro n _
  cases n <;> rfl

theorem markRoot_defines (roots : List QIdent) (n : Node) : (markRoot roots n).defines = n.defines := by
  cases n <;> try rfl
  simp only [markRoot]; split <;> rfl

theorem markRoot_ident (roots : List QIdent) (n : Node) : (markRoot roots n).ident = n.ident := by
  cases n <;> try rfl
  simp only [markRoot]; split <;> rfl

theorem markRoot_isItem (roots : List QIdent) (n : Node) : (markRoot roots n).isItem = n.isItem := by
  cases n <;> try rfl
  simp only [markRoot]; split <;> rfl

theorem markRoot_emits {N : Names} {ns : Option Ast.QIdent} {el : Element} {l : List Node} (roots : List QIdent)
    (h : Emits N ns el l) : Emits N ns el (l.map (markRoot roots)) := by
  cases h with
  | table t fields root h =>
    simp only [List.map_cons, List.map_nil, markRoot]
    split
    · exact .table t fields _ h
    · exact .table t fields _ h
  | struct s fields h => exact .struct s fields h
  | enum e base h => exact .enum e base h
  | union u vs h => exact .union u vs h
  | rpc r ms h => exact .rpc r ms h

theorem emits_item {N : Names} {ns : Option Ast.QIdent} {el : Element} {l : List Node} (h : Emits N ns el l) :
    ∀ n ∈ l, n.isItem = true ∧ n.ident ≠ [] := by
  cases h <;> simp [Node.isItem, Node.ident, nameIn, tagEnumIn]

theorem emits_declares {N : Names} {ns : Option Ast.QIdent} {el : Element} {l : List Node} (h : Emits N ns el l) :
    declares el = true := by
  cases h <;> rfl

theorem all₂_map_of_forall {α β γ : Type} {R : β → γ → Prop} (f : α → β) (g : α → γ) (l : List α)
    (h : ∀ x ∈ l, R (f x) (g x)) : All₂ R (l.map f) (l.map g) := by
  induction l with
  | nil => exact .nil
  | cons x l ih => exact .cons (h x (by simp)) (ih fun y hy => h y (by simp [hy]))

theorem mem_insertNodes {p : Nat} {ns : List Node} {y : Nat × List Node} {l : List (Nat × List Node)}
    (h : y ∈ insertNodes p ns l) : y = (p, ns) ∨ y ∈ l := by
  induction l with
  | nil => simpa [insertNodes] using h
  | cons z l ih =>
    simp only [insertNodes] at h
    split at h
    · simpa using h
    · split at h
      · rcases List.mem_cons.mp h with h | h
        · exact .inl h
        · exact .inr (by simp [h])
      · rcases List.mem_cons.mp h with h | h
        · exact .inr (by simp [h])
        · rcases ih h with h | h
          · exact .inl h
          · exact .inr (by simp [h])

theorem stepped_notRoot {c c' : Ctx} {p : Nat} {el : Element} {b : Bool} (h : Stepped c p el b c')
    (hc : ∀ x ∈ c.nodes, ∀ t, .table t ∈ x.2 → t.rootType = false) :
    ∀ x ∈ c'.nodes, ∀ t, .table t ∈ x.2 → t.rootType = false := by
  have key : ∀ new : List Node, (∀ t, .table t ∈ new → t.rootType = false) → ∀ l, l = c.nodes →
      ∀ x ∈ insertNodes p new l, ∀ t, .table t ∈ x.2 → t.rootType = false := by
    rintro new hn l rfl x hx t ht
    rcases mem_insertNodes hx with rfl | hx
    · exact hn t ht
    · exact hc x hx t ht
  cases h with
  | tableDone t fields hd hf => exact key _ (by simp) _ rfl
  | structDone s fields hd hf => exact key _ (by simp) _ rfl
  | enum e base hd hb => exact key _ (by simp) _ rfl
  | unionDone u vs hd hv hg => exact key _ (by simp) _ rfl
  | rpcDone r ms c1 hm => exact key _ (by simp) _ (rpcMethods_frame hm).2.2.1
  | rpcWait r c' hm => rw [(rpcMethods_frame hm).2.2.1]; exact hc
  | _ => exact hc

theorem notRoot {E : List Element} {Ok : Nat → Option Ast.QIdent → Prop} {c : Ctx} {pend : Nat → Prop}
    (h : Run E Ok c pend) :
    ∀ x ∈ c.nodes, ∀ t, .table t ∈ x.2 → t.rootType = false := by
  induction h with
  | init => simp [Ctx.init]
  | done r he hp hn hs ih => exact stepped_notRoot hs ih
  | wait r he hp hn hs ih => exact stepped_notRoot hs ih

/-- What is known of the outcome of a run. -/
theorem run_outcome {E : List Element} {Ok : Nat → Option Ast.QIdent → Prop} {c : Ctx}
    (hr : Run E Ok c (fun _ => False)) :
    ∃ groups : List (List Node),
      HoldsItems (arrange c.items) groups.flatten ∧
      All₂ (fun p g => ∃ el ns, E[p]? = some el ∧ Ok p ns ∧
        Emits ⟨TableName E Ok, (Names.ofItems groups.flatten).dfn⟩ ns el g) (declPositions E) groups ∧
      ((groups.flatten.filterMap Node.defines).map (·.1)).Nodup ∧
      (∀ t, .table t ∈ groups.flatten → t.rootType = true →
        ∃ p el ns, E[p]? = some el ∧ Ok p ns ∧ Requests ns t.ident el) ∧
      (∀ p el, E[p]? = some el → ∃ ns, Ok p ns ∧
        ∀ q, Requests ns q el → ∃ t, .table t ∈ groups.flatten ∧ t.ident = q ∧ t.rootType = true) ∧
      (∀ p el, E[p]? = some el → ∃ c c', Stepped c p el true c') := by
  have inv := run_inv hr
  have hflat : c.items = (c.nodes.map fun x => x.2.map (markRoot c.roots)).flatten := by
    rw [items_eq, List.map_flatMap, List.flatMap]
  have hdfn : ∀ q ct, (Names.ofItems c.items).dfn q ct ↔ c.types q = some (.defined ct) := by
    intro q ct
    rw [inv.defd, items_eq]
    simp only [Names.ofItems, List.mem_map]
    constructor
    · rintro ⟨n, ⟨n', h1, rfl⟩, h2⟩
      exact ⟨n', h1, by rwa [markRoot_defines] at h2⟩
    · rintro ⟨n, h1, h2⟩
      exact ⟨_, ⟨n, h1, rfl⟩, by rwa [markRoot_defines]⟩
  have hitem : ∀ n ∈ c.items, n.isItem = true ∧ n.ident ≠ [] := by
    intro n hn
    rw [items_eq] at hn
    obtain ⟨n', hn', rfl⟩ := List.mem_map.mp hn
    obtain ⟨x, hx, hn'⟩ := List.mem_flatMap.mp hn'
    obtain ⟨el, ns, _, _, he⟩ := inv.emits x hx
    rw [markRoot_isItem, markRoot_ident]
    exact emits_item he n' hn'
  refine ⟨c.nodes.map fun x => x.2.map (markRoot c.roots), ?_⟩
  rw [← hflat]
  refine ⟨arrange_spec _ (fun n hn => (hitem n hn).1) (fun n hn => (hitem n hn).2), ?_, ?_, ?_, ?_, ?_⟩
  · have hk : declPositions E = c.nodes.map (·.1) := by
      refine sorted_ext (List.Pairwise.filter _ List.pairwise_lt_range) inv.sorted ?_
      intro p
      rw [mem_declPositions]
      constructor
      · rintro ⟨el, h1, h2⟩
        exact inv.complete p el h1 h2 (fun h => h)
      · intro hp
        obtain ⟨x, hx, rfl⟩ := List.mem_map.mp hp
        obtain ⟨el, ns, h1, _, h2⟩ := inv.emits x hx
        exact ⟨el, h1, emits_declares h2⟩
    rw [hk]
    refine all₂_map_of_forall _ _ _ ?_
    intro x hx
    obtain ⟨el, ns, h1, h2, h3⟩ := inv.emits x hx
    refine ⟨el, ns, h1, h2, markRoot_emits _ (Emits.mono (N := c.names E Ok)
      (N' := ⟨TableName E Ok, (Names.ofItems c.items).dfn⟩) (fun q hq => hq) ?_ h3)⟩
    intro q ct hq
    exact (hdfn q ct).mpr hq
  · have : c.items.filterMap Node.defines = (c.nodes.flatMap (·.2)).filterMap Node.defines := by
      rw [items_eq, List.filterMap_map]
      congr 1
      funext n
      exact markRoot_defines _ n
    rw [this]; exact inv.uniq
  · intro t ht hroot
    rw [items_eq] at ht
    obtain ⟨n', hn', e⟩ := List.mem_map.mp ht
    obtain ⟨x, hx, hn''⟩ := List.mem_flatMap.mp hn'
    cases n' with
    | table t' =>
      simp only [markRoot] at e
      split at e
      · rename_i hm
        cases e
        exact (inv.roots _ hm).2
      · cases e
        -- before marking no table is a root
        exact absurd hroot (by
          have := notRoot hr x hx t hn''
          simp [this])
    | _ => simp [markRoot] at e
  · intro p el he
    obtain ⟨ns, h1, h2⟩ := inv.rooted p el he (fun h => h)
    refine ⟨ns, h1, fun q hq => ?_⟩
    have hq := h2 q hq
    have ht := (inv.roots q hq).1
    obtain ⟨n, hn, hd⟩ := (inv.defd q .table).mp ht
    cases n with
    | table t =>
      simp only [Node.defines, Option.some.injEq, Prod.mk.injEq, and_true] at hd
      refine ⟨{ t with rootType := true }, ?_, hd, rfl⟩
      rw [items_eq]
      refine List.mem_map.mpr ⟨.table t, hn, ?_⟩
      simp [markRoot, hd, hq]
    | _ => simp [Node.defines] at hd
  · intro p el he
    exact inv.supported p el he (fun h => h)

end Butte.Ir
