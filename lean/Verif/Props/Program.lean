import Verif.Gen.Paths
import Verif.Props.Names
import Verif.Props.Analysis
/-
Property C70: the paths in the generated program.
-/
namespace Butte.Gen
open Ir (QIdent Node Ident itemsOf OneNamespace InOrder commonPrefix)

set_option maxRecDepth 8000

theorem lookup_up (items : List Item) : ∀ (n : Nat) (cur p : List Str), n ≤ cur.length → p ≠ [] →
    lookup items cur (List.replicate n c!"super" ++ p) = lookup items (cur.take (cur.length - n)) p
  | 0, cur, p, _, _ => by simp
  | n + 1, cur, p, h, hp => by
    have hc : cur ≠ [] := by rintro rfl; simp at h
    have e : ∀ q, q ≠ [] → lookup items cur (c!"super" :: q) = lookup items cur.dropLast q := by
      intro q hq
      cases q with
      | nil => exact absurd rfl hq
      | cons t q => rw [lookup, if_pos rfl, if_neg hc]
    rw [List.replicate_succ, List.cons_append, e _ (by simp [hp]), lookup_up items n cur.dropLast p (by simp; omega) hp,
      List.dropLast_eq_take, List.take_take]
    congr 2
    simp only [List.length_take]
    omega

theorem lookup_down (items : List Item) : ∀ (d cur : List Str) (x : Str), (∀ s ∈ d ++ [x], s ≠ c!"super") →
    (∀ pre s, pre ++ [s] <+: d → (⟨cur ++ pre, .type, s⟩ : Item) ∈ items) → (⟨cur ++ d, .type, x⟩ : Item) ∈ items →
    lookup items cur (d ++ [x]) = some ⟨cur ++ d, .type, x⟩
  | [], cur, x, hs, _, hx => by
    simp only [List.append_nil] at hx
    simp only [List.nil_append, lookup, List.append_nil]
    rw [if_pos ⟨hs x (by simp), hx⟩]
  | s :: d, cur, x, hs, hd, hx => by
    obtain ⟨t, p, e⟩ : ∃ t p, d ++ [x] = t :: p := by cases d <;> simp
    have h1 : (⟨cur, .type, s⟩ : Item) ∈ items := by simpa using hd [] s (by simp)
    rw [List.cons_append, e, lookup, if_neg (hs s (by simp)), if_pos h1, ← e,
      lookup_down items d (cur ++ [s]) x (fun y hy => hs y (by simp at hy ⊢; tauto)) ?_ (by simpa using hx)]
    · simp
    · intro pre y hp
      have := hd (s :: pre) y (by simpa using hp)
      simpa using this

/-- The path from namespace `ns` to `q` leads to the item generated for `q`. -/
theorem lookup_relative {items : List Item} {q : QIdent} {ns : Option QIdent} (h : ∀ s ∈ q, s ≠ c!"super") (hq : q ≠ [])
    (hp : ∀ n, ns = some n → ¬ q <+: n)
    (hs : ∀ s ∈ (q.dropLast).drop (commonPrefix q (ns.getD [])), Heck.snake s = s)
    (hm : ∀ pre s, pre ++ [s] <+: q.dropLast → (⟨pre.map Heck.snake, .type, Heck.snake s⟩ : Item) ∈ items)
    (hi : (⟨q.dropLast.map Heck.snake, .type, QIdent.simple q⟩ : Item) ∈ items) :
    lookup items ((ns.getD []).map Heck.snake) (QIdent.relative q ns) =
      some ⟨q.dropLast.map Heck.snake, .type, QIdent.simple q⟩ := by
  obtain ⟨qn, x, rfl⟩ : ∃ qn x, q = qn ++ [x] := ⟨q.dropLast, q.getLast hq, (List.dropLast_concat_getLast hq).symm⟩
  have hmap : ∀ l : List Str, (∀ s ∈ l, Heck.snake s = s) → l.map Heck.snake = l := by
    intro l hl
    exact (List.map_congr_left hl).trans (by simp)
  simp only [List.dropLast_concat] at *
  -- both cases: `k` leading parts are shared, the rest is walked down
  have key : ∀ k, k ≤ qn.length → (∀ s ∈ qn.drop k, Heck.snake s = s) →
      lookup items ((qn.take k).map Heck.snake) ((qn ++ [x]).drop k) =
        some ⟨qn.map Heck.snake, .type, QIdent.simple (qn ++ [x])⟩ := by
    intro k hk hs
    have e : (qn.take k).map Heck.snake ++ qn.drop k = qn.map Heck.snake := by
      rw [← hmap _ hs, ← List.map_append, List.take_append_drop]
    have ex : QIdent.simple (qn ++ [x]) = x := by simp [QIdent.simple]
    rw [List.drop_append_of_le_length hk, lookup_down items, e, ex]
    · intro s hs
      exact h s (by simp at hs ⊢; exact hs.imp_left List.mem_of_mem_drop)
    · intro pre s hpre
      have hsn : ∀ y ∈ pre ++ [s], Heck.snake y = y := fun y hy => hs y (hpre.subset hy)
      have := hm (qn.take k ++ pre) s (by
        have h := (List.prefix_append_right_inj (qn.take k)).mpr hpre
        rw [List.take_append_drop] at h
        simpa using h)
      rw [List.map_append, hsn s (by simp), hmap pre fun y hy => hsn y (by simp [hy])] at this
      exact this
    · rw [e, ← ex]; exact hi
  cases ns with
  | none =>
    have := key 0 (by simp) (by
      have : commonPrefix (qn ++ [x]) [] = 0 := by cases qn <;> rfl
      simpa [this] using hs)
    simpa [QIdent.relative] using this
  | some ns =>
    simp only [QIdent.relative, Option.getD_some] at hs ⊢
    have h1 := commonPrefix_le (qn ++ [x]) ns
    have h2 := commonPrefix_le_left (qn ++ [x]) ns
    have h3 := commonPrefix_take (qn ++ [x]) ns
    have hlt : commonPrefix (qn ++ [x]) ns ≤ qn.length := by
      rcases Nat.lt_or_ge qn.length (commonPrefix (qn ++ [x]) ns) with hlt | hge
      · exfalso
        apply hp ns rfl
        have hk : commonPrefix (qn ++ [x]) ns = (qn ++ [x]).length := by
          simp only [List.length_append, List.length_singleton] at h2 ⊢; omega
        rw [hk, List.take_length] at h3
        rw [h3]
        exact List.take_prefix _ _
      · exact hge
    generalize commonPrefix (qn ++ [x]) ns = k at *
    rw [lookup_up items _ _ _ (by simp) (by simp; omega)]
    simp only [List.length_map]
    rw [show ns.length - (ns.length - k) = k by omega, ← List.map_take, ← h3, List.take_append_of_le_length hlt]
    exact key k hlt hs

/-! ### C70 -/

/-- Every path in the code generated for `out` leads to the item that defines what the path is meant to name. -/
def PathsLead (out : List Node) (items : List Item) : Prop :=
  ∀ x ∈ itemsOf out, ∀ q ∈ paths x.2, (∃ y ∈ itemsOf out, ∃ ct, y.2.defines = some (q, ct)) ∧
    lookup items (x.1.map Heck.snake) (QIdent.relative q (QIdent.namespace x.2.ident)) =
      some ⟨q.dropLast.map Heck.snake, .type, QIdent.simple q⟩

theorem namespace_getD (q : QIdent) : (QIdent.namespace q).getD [] = q.dropLast := by
  unfold QIdent.namespace
  split
  · simp [List.dropLast_eq_take]
  · simp only [Option.getD_none]
    have : q.dropLast.length = 0 := by simp; omega
    exact (List.length_eq_zero_iff.mp this).symm

theorem namespace_some {q n : QIdent} (h : QIdent.namespace q = some n) : n = q.dropLast := by
  rw [← namespace_getD, h, Option.getD_some]

/-- What items are called. -/
theorem item_name {E : List Ast.Element} {out : List Node} (h : Ir.Translates E out) {y : List Ident × Node}
    (hy : y ∈ itemsOf out) : ∃ (p : Nat) (el : Ast.Element) (i : Str), E[p]? = some el ∧ Ir.declares el = true ∧
      (y.2.ident = Ir.nameIn (Ir.lastNs (E.take p)) i ∨
        paths y.2 = [] ∧ y.2.ident = Ir.tagEnumIn (Ir.lastNs (E.take p)) i) := by
  obtain ⟨groups, g1, g2, _⟩ := h
  obtain ⟨g, hg, hxg⟩ := List.mem_flatten.mp (Ir.holds_path g1 hy).1
  obtain ⟨p, _, el, hel, hem⟩ := Ir.all₂_right g2 hg
  refine ⟨p, el, ?_⟩
  generalize y.2 = n at *
  cases hem with
  | table t _ _ _ =>
    simp only [List.mem_singleton] at hxg; subst hxg
    exact ⟨t.id, hel, rfl, .inl rfl⟩
  | struct s _ _ =>
    simp only [List.mem_singleton] at hxg; subst hxg
    exact ⟨s.id, hel, rfl, .inl rfl⟩
  | enum e _ _ =>
    simp only [List.mem_singleton] at hxg; subst hxg
    exact ⟨e.id, hel, rfl, .inl rfl⟩
  | union u _ _ =>
    simp only [List.mem_cons, List.not_mem_nil, or_false] at hxg
    rcases hxg with rfl | rfl
    · exact ⟨u.id, hel, rfl, .inr ⟨rfl, rfl⟩⟩
    · exact ⟨u.id, hel, rfl, .inl rfl⟩
  | rpc r _ _ =>
    simp only [List.mem_singleton] at hxg; subst hxg
    exact ⟨r.id, hel, rfl, .inl rfl⟩

theorem nameIn_parts {ns : Option Ast.QIdent} {i : Str} : Ir.nameIn ns i ≠ [] ∧ ∀ s ∈ Ir.nameIn ns i, s ≠ c!"super" := by
  refine ⟨by simp [Ir.nameIn], ?_⟩
  intro s hs
  simp only [Ir.nameIn, List.mem_append, List.mem_map, List.mem_singleton] at hs
  rcases hs with ⟨a, _, rfl⟩ | rfl <;> exact C44_no_super _

theorem tagEnumIn_parts {ns : Option Ast.QIdent} {i : Str} :
    Ir.tagEnumIn ns i ≠ [] ∧ ∀ s ∈ Ir.tagEnumIn ns i, s ≠ c!"super" := by
  refine ⟨by simp [Ir.tagEnumIn], ?_⟩
  intro s hs
  simp only [Ir.tagEnumIn, List.mem_append, List.mem_map, List.mem_cons, List.not_mem_nil, or_false] at hs
  rcases hs with ⟨a, _, rfl⟩ | rfl | rfl
  · exact C44_no_super _
  · decide
  · exact C44_no_super _

/-- The conditions under which every path leads where it should. -/
theorem paths_lead {E : List Ast.Element} {out : List Node} {items : List Item} (h : Ir.Translates E out)
    (hg : emitsAll [] out = some items)
    (hp : ∀ x ∈ itemsOf out, ∀ q ∈ paths x.2, ¬ q <+: x.1 ∧ ∀ s ∈ q.dropLast.drop (commonPrefix q x.1), Heck.snake s = s) :
    PathsLead out items := by
  intro x hx q hq
  obtain ⟨y, hy, ct, hd⟩ := paths_defined h hx hq
  refine ⟨⟨y, hy, ct, hd⟩, ?_⟩
  obtain ⟨groups, g1, g2⟩ := id h
  have hx1 := (Ir.holds_path g1 hx).2
  have hy1 := (Ir.holds_path g1 hy).2
  have hyq := defines_ident hd
  have hparts : q ≠ [] ∧ ∀ s ∈ q, s ≠ c!"super" := by
    obtain ⟨p, el, i, _, _, hn | ⟨_, hn⟩⟩ := item_name h hy
    · rw [← hyq, hn]; exact nameIn_parts
    · rw [← hyq, hn]; exact tagEnumIn_parts
  obtain ⟨hp, hs⟩ := hp x hx q hq
  have hns := namespace_getD x.2.ident
  rw [hx1] at hns
  rw [← hns] at hp hs ⊢
  rw [hyq] at hy1
  refine lookup_relative hparts.2 hparts.1 ?_ hs ?_ ?_
  · intro n hn
    rw [hn, Option.getD_some] at hp
    exact hp
  · intro pre s hpre
    rw [hy1] at hpre
    exact emitsAll_modules [] out items (by simpa using hg) y hy pre s hpre (by simp)
  · rw [hy1]
    exact emitsAll_defines [] out items (by simpa using hg) y hy q ct hd

theorem commonPrefix_append (a b : QIdent) : commonPrefix (a ++ b) a = a.length := by
  induction a with
  | nil => cases b <;> rfl
  | cons x a ih => simp [commonPrefix, ih]

/-- `namespace a; table x { } namespace b; table T { m: a.x; }` -/
def exTwo (a x : Str) (b : Ast.QIdent) : Ast.Schema := ⟨[], [Ir.exNs a, Ir.exTable x [], .namespace b [],
  Ir.exTable c!"T" [Ir.exRef c!"m" [a, x]]]⟩

theorem exTwo_order (a x : Str) (b : Ast.QIdent) : InOrder (exTwo a x b).elements := by
  intro p el he r hr
  have hp : p < 4 := (List.getElem?_eq_some_iff.mp he).1
  have hcases : p = 0 ∨ p = 1 ∨ p = 2 ∨ p = 3 := by omega
  rcases hcases with rfl | rfl | rfl | rfl
  · cases he; simp [Ir.exNs, Ir.needs, Ir.tableRefs] at hr
  · cases he; simp [Ir.exTable, Ir.needs, Ir.tableRefs] at hr
  · cases he; simp [Ir.needs, Ir.tableRefs] at hr
  · cases he
    have hr : r = [a, x] := by
      simpa [Ir.exTable, Ir.exRef, Ir.needs, Ir.tableRefs, Ir.tyRefs] using hr
    subst hr
    exact .inl ⟨1, _, .table, by omega, rfl, List.mem_singleton.mpr rfl⟩

/-- **C70** is false: the path to `GameAssets.Mesh` enters a module `GameAssets`, but the module is `game_assets`. The
schema is accepted, code is generated, and the code names something that is not there. -/
theorem C70_refuted : ∃ (s : Ast.Schema) (out : List Node) (items : List Item), InOrder s.elements ∧
    Ir.build s = some (.ok out) ∧ emitsAll [] out = some items ∧ ∃ x ∈ itemsOf out, ∃ q ∈ paths x.2,
      lookup items (x.1.map Heck.snake) (QIdent.relative q (QIdent.namespace x.2.ident)) = none := by
  refine ⟨exTwo c!"GameAssets" c!"Mesh" [c!"game"], _, _, exTwo_order _ _ _, rfl, rfl, ?_⟩
  · refine ⟨_, List.mem_cons_of_mem _ List.mem_cons_self, [c!"GameAssets", c!"Mesh"], ?_, ?_⟩
    · decide
    · decide

/-- **C70** is false as well of a type named like the namespace that uses it: the path is empty. -/
theorem C70_prefix_refuted : ∃ (s : Ast.Schema) (out : List Node) (items : List Item), InOrder s.elements ∧
    Ir.build s = some (.ok out) ∧ emitsAll [] out = some items ∧ ∃ x ∈ itemsOf out, ∃ q ∈ paths x.2,
      QIdent.relative q (QIdent.namespace x.2.ident) = [] ∧
      lookup items (x.1.map Heck.snake) (QIdent.relative q (QIdent.namespace x.2.ident)) = none := by
  refine ⟨exTwo c!"A" c!"B" [c!"A", c!"B"], _, _, exTwo_order _ _ _, rfl, rfl, ?_⟩
  · refine ⟨_, List.mem_cons_self, [c!"A", c!"B"], ?_, ?_, ?_⟩
    · decide
    · decide
    · decide

/-- **C70** in one namespace, without conditions: every path in the generated program leads, by Rust's rules, to the item
generated for the type that the schema names there. -/
theorem C70_one_namespace_partial {s : Ast.Schema} {out : List Node} {items : List Item} (h1 : OneNamespace s.elements)
    (hb : Ir.build s = some (.ok out)) (hg : emitsAll [] out = some items) : PathsLead out items := by
  have h := (Ir.C46_resolved_partial (.inl h1) hb).1
  refine paths_lead h hg ?_
  intro x hx q hq
  obtain ⟨y, hy, ct, hd⟩ := paths_defined h hx hq
  have hyq := defines_ident hd
  have hN : ∀ p el, s.elements[p]? = some el → Ir.declares el = true → Ir.lastNs (s.elements.take p) = Ir.lastNs s.elements :=
    fun p el he hd => h1 p el he (Ir.declares_not_ns hd)
  have hx1 : x.1 = ((Ir.lastNs s.elements).getD []).map Ir.fixIdentifier := by
    rw [((Ir.C50_output hb).1 x hx)]
    obtain ⟨p, el, i, he, hde, hn | ⟨hn, _⟩⟩ := item_name h hx
    · rw [hn, hN p el he hde, Ir.nameIn, List.dropLast_concat]
    · rw [hn] at hq; cases hq
  rw [hx1]
  obtain ⟨p, el, i, he, hde, hn | ⟨_, hn⟩⟩ := item_name h hy
  · rw [← hyq, hn, hN p el he hde, Ir.nameIn]
    refine ⟨fun hc => by have := hc.length_le; simp at this; omega, ?_⟩
    rw [commonPrefix_append, List.dropLast_concat, List.drop_length]
    simp
  · rw [← hyq, hn, hN p el he hde, Ir.tagEnumIn]
    refine ⟨fun hc => by have := hc.length_le; simp at this; omega, ?_⟩
    rw [commonPrefix_append, List.dropLast_append_cons, List.drop_left]
    simp only [List.dropLast_cons_cons, List.dropLast_singleton, List.mem_singleton]
    rintro t rfl
    decide

/-- `namespace GameAssets; enum E: ubyte { X } union U { Mesh } table Mesh { u: U; next: Mesh; all: [Mesh]; }` -/
def exPaths : Ast.Schema := ⟨[], [Ir.exNs c!"GameAssets", Ir.exEnum c!"E", Ir.exUnion c!"U" [c!"Mesh"],
  Ir.exTable c!"Mesh" [Ir.exRef c!"u" [c!"U"], Ir.exRef c!"next" [c!"Mesh"],
    ⟨c!"all", .array (.ident [c!"Mesh"]), none, none, []⟩]]⟩

theorem exPaths_one : OneNamespace exPaths.elements := by
  intro p el he hne
  have hp : p < 4 := (List.getElem?_eq_some_iff.mp he).1
  rcases Nat.lt_or_ge p 1 with h | h
  · obtain rfl : p = 0 := by omega
    cases he
    exact absurd rfl (hne _ _)
  · have : ∀ p, p < 4 → 1 ≤ p → Ir.lastNs (exPaths.elements.take p) = Ir.lastNs exPaths.elements := by decide
    exact this p hp h

/-- A path into the module of the enums of unions, from a module whose namespace is not in snake case. -/
example : ∃ out items, Ir.build exPaths = some (.ok out) ∧ emitsAll [] out = some items ∧ PathsLead out items ∧
    lookup items [c!"game_assets"] [c!"butte_gen", c!"UType"] =
      some ⟨[c!"game_assets", c!"butte_gen"], .type, c!"UType"⟩ ∧
    ∃ x ∈ itemsOf out, x.1 = [c!"GameAssets"] ∧ [c!"GameAssets", c!"butte_gen", c!"UType"] ∈ paths x.2 := by
  refine ⟨_, _, rfl, rfl, ?_, ?_, ?_⟩
  · exact C70_one_namespace_partial exPaths_one rfl rfl
  · decide
  · refine ⟨_, List.mem_cons_of_mem _ (List.mem_cons_of_mem _ List.mem_cons_self), ?_, ?_⟩ <;> decide

/-- **C70** with several namespaces, declared before use: the same, provided no type has the same full name as a namespace
that uses it, and the namespaces that have to be entered are spelled in snake case. -/
theorem C70_partial {s : Ast.Schema} {out : List Node} {items : List Item} (h1 : OneNamespace s.elements ∨ InOrder s.elements)
    (hb : Ir.build s = some (.ok out)) (hg : emitsAll [] out = some items)
    (hp : ∀ x ∈ itemsOf out, ∀ q ∈ paths x.2, ¬ q <+: x.1 ∧ ∀ s ∈ q.dropLast.drop (commonPrefix q x.1), Heck.snake s = s) :
    PathsLead out items := paths_lead (Ir.C46_resolved_partial h1 hb).1 hg hp

/-- `namespace assets; table Mesh { } namespace Game.World; table T { m: assets.Mesh; }` -/
example : ∃ out items, Ir.build (exTwo c!"assets" c!"Mesh" [c!"Game", c!"World"]) = some (.ok out) ∧
    emitsAll [] out = some items ∧ PathsLead out items ∧
    ∃ x ∈ itemsOf out, [c!"assets", c!"Mesh"] ∈ paths x.2 ∧
      QIdent.relative [c!"assets", c!"Mesh"] (QIdent.namespace x.2.ident) = [c!"super", c!"super", c!"assets", c!"Mesh"] := by
  refine ⟨_, _, rfl, rfl, ?_, ?_⟩
  · exact C70_partial (.inr (exTwo_order c!"assets" c!"Mesh" [c!"Game", c!"World"])) rfl rfl (by decide)
  · refine ⟨_, List.mem_cons_self, ?_, ?_⟩ <;> decide

end Butte.Gen
