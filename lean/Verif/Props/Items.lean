import Verif.Gen.Items
import Verif.Props.Program
import Mathlib.Data.List.Nodup
import Mathlib.Data.List.Pairwise
/-
Property C71: the names in the generated program.
-/
namespace Butte.Gen
open Ir (QIdent Node Ident itemsOf OneNamespace InOrder)

set_option maxRecDepth 8000

/-- `x` is an item that defines the type `q`. -/
def Defines (out : List Node) (x : List Ident × Node) (q : QIdent) : Prop := x ∈ itemsOf out ∧ ∃ ct, x.2.defines = some (q, ct)

/-- None of the ways in which two names of the program can be the same. -/
structure Clashfree (out : List Node) : Prop where
  /-- Namespaces do not differ in their spelling only. -/
  modules : ∀ x ∈ itemsOf out, ∀ y ∈ itemsOf out, ∀ p p', p <+: x.1 → p' <+: y.1 → p.map Heck.snake = p'.map Heck.snake →
    p = p'
  /-- No type is called like a module beside it. -/
  modType : ∀ x q, Defines out x q → ∀ y ∈ itemsOf out, ∀ m, x.1 ++ [m] <+: y.1 → Heck.snake m ≠ QIdent.simple q
  /-- No type is called like the arguments or the builder of a table beside it. -/
  derived : ∀ x q t, Defines out x q → (x.1, .table t) ∈ itemsOf out →
    QIdent.simple q ≠ QIdent.simple t.ident ++ c!"Args" ∧ QIdent.simple q ≠ QIdent.simple t.ident ++ c!"Builder"
  /-- No two enums beside each other differ in their spelling only. -/
  enums : ∀ p e e', (p, .enum e) ∈ itemsOf out → (p, .enum e') ∈ itemsOf out →
    Heck.snake (QIdent.simple e.ident) = Heck.snake (QIdent.simple e'.ident) → e.ident = e'.ident

theorem own_table (P : List Str) (t : Ir.Table) : own P (.table t) = [⟨P, .type, QIdent.simple t.ident⟩,
    ⟨P, .type, QIdent.simple t.ident ++ c!"Args"⟩, ⟨P, .type, QIdent.simple t.ident ++ c!"Builder"⟩] := rfl
theorem own_struct (P : List Str) (s : Ir.Struct) : own P (.struct s) = [] := rfl
theorem own_enum (P : List Str) (e : Ir.Enum) : own P (.enum e) =
    [⟨P, .type, QIdent.simple e.ident⟩, ⟨P, .value, c!"enum_name_" ++ Heck.snake (QIdent.simple e.ident)⟩] := rfl
theorem own_union (P : List Str) (u : Ir.Union) : own P (.union u) = [⟨P, .type, QIdent.simple u.ident⟩] := rfl
theorem own_rpc (P : List Str) (r : Ir.Rpc) : own P (.rpc r) = [] := rfl

/-- What an item introduces: its type, the types derived from a table, the function of an enum. -/
theorem own_cases {P : List Str} {n : Node} {i : Item} (h : i ∈ own P n) (hn : n.isItem = true) :
    i.module = P ∧ (
      i.space = .type ∧ (∃ q ct, n.defines = some (q, ct) ∧ i.name = QIdent.simple q) ∨
      i.space = .type ∧ (∃ t, n = .table t ∧
        (i.name = QIdent.simple t.ident ++ c!"Args" ∨ i.name = QIdent.simple t.ident ++ c!"Builder")) ∨
      i.space = .value ∧ ∃ e, n = .enum e ∧ i.name = c!"enum_name_" ++ Heck.snake (QIdent.simple e.ident)) := by
  cases n with
  | table t =>
    simp only [own_table, List.mem_cons, List.not_mem_nil, or_false] at h
    rcases h with rfl | rfl | rfl
    · exact ⟨rfl, .inl ⟨rfl, _, _, rfl, rfl⟩⟩
    · exact ⟨rfl, .inr (.inl ⟨rfl, _, rfl, .inl rfl⟩)⟩
    · exact ⟨rfl, .inr (.inl ⟨rfl, _, rfl, .inr rfl⟩)⟩
  | struct s => cases h
  | enum e =>
    simp only [own_enum, List.mem_cons, List.not_mem_nil, or_false] at h
    rcases h with rfl | rfl
    · exact ⟨rfl, .inl ⟨rfl, _, _, rfl, rfl⟩⟩
    · exact ⟨rfl, .inr (.inr ⟨rfl, _, rfl, rfl⟩)⟩
  | union u =>
    simp only [own_union, List.mem_cons, List.not_mem_nil, or_false] at h
    subst h
    exact ⟨rfl, .inl ⟨rfl, _, _, rfl, rfl⟩⟩
  | rpc r => cases h
  | «namespace» i ns => cases hn

theorem own_nodup (P : List Str) (n : Node) (hn : n.isItem = true) : (own P n).Nodup := by
  cases n with
  | table t => simp [own_table]
  | struct s => exact List.nodup_nil
  | enum e => simp [own_enum]
  | union u => simp [own_union]
  | rpc r => exact List.nodup_nil
  | «namespace» i ns => cases hn

theorem item_facts {s : Ast.Schema} {out : List Node} (hb : Ir.build s = some (.ok out)) {x : List Ident × Node}
    (hx : x ∈ itemsOf out) : x.2.isItem = true ∧ x.2.ident = x.1 ++ [QIdent.simple x.2.ident] := by
  obtain ⟨groups, g1, g2, _⟩ := Ir.C46_any_partial hb
  have h1 := Ir.holds_path g1 hx
  obtain ⟨g, hg, hxg⟩ := List.mem_flatten.mp h1.1
  obtain ⟨p, _, el, ns, _, _, hem⟩ := Ir.all₂_right g2 hg
  have h2 := Ir.emits_item hem _ hxg
  refine ⟨h2.1, ?_⟩
  rw [← h1.2, QIdent.simple, List.getLastD_eq_getLast?, List.getLast?_eq_some_getLast h2.2, Option.getD_some,
    List.dropLast_concat_getLast]

theorem append_inj_last {a b u v : Str} (h : a ++ u = b ++ v) (hu : u ≠ []) (hv : v ≠ []) : u.getLast? = v.getLast? := by
  have := congrArg List.getLast? h
  rwa [List.getLast?_append_of_ne_nil _ hu, List.getLast?_append_of_ne_nil _ hv] at this

/-- **C71**, whatever the schema: the program introduces no name twice if and only if there are no clashes. -/
theorem C71_iff_partial {s : Ast.Schema} {out : List Node} {items : List Item} (hb : Ir.build s = some (.ok out))
    (hg : emitsAll [] out = some items) : items.Nodup ↔ Clashfree out := by
  have hperm := emitsAll_flat [] out items (by simpa using hg)
  have hfacts := @item_facts s out hb
  have hstr : ∀ x ∈ itemsOf out, ∀ s, x.2 ≠ .struct s := emitsAll_no_struct [] out _ _ hg
  obtain ⟨-, hprop, hmods⟩ := Ir.C50_output hb
  have hM := modPathsL_nodup [] out hmods hprop
  have hML := modPathsL_leaf [] out hprop
  have hLM : ∀ x ∈ itemsOf out, ∀ p m, p ++ [m] <+: x.1 → p ++ [m] ∈ modPathsL [] out :=
    fun x hx p m h => leaf_modPathsL [] out x hx p m h (by simp)
  have hdist : (itemsOf out).Pairwise fun x y => ∀ q ct q' ct', x.2.defines = some (q, ct) → y.2.defines = some (q', ct') →
      q ≠ q' := by
    have := Ir.C47_output_partial hb
    rw [List.Nodup, List.pairwise_map, List.pairwise_filterMap] at this
    refine this.imp ?_
    intro x y h q ct q' ct' h1 h2
    exact h _ h1 _ h2
  rw [hperm.nodup_iff, flat, List.nodup_append', List.nodup_flatMap, List.nodup_map_iff_inj_on hM]
  change ((_ ∧ List.Pairwise _ (itemsOf out)) ∧ _ ∧ _) ↔ _
  generalize hMe : modPathsL [] out = M at *
  constructor
  · rintro ⟨⟨-, hdisj⟩, hinj, hdm⟩
    have : Std.Symm (Function.onFun List.Disjoint fun x : List Ident × Node => own (x.1.map Heck.snake) x.2) :=
      ⟨fun a b h i h1 h2 => h h2 h1⟩
    have hdisj := hdisj.forall
    have hdm : ∀ x ∈ itemsOf out, ∀ i, i ∈ own (x.1.map Heck.snake) x.2 → ∀ p ∈ M, i ≠ modItem p := by
      intro x hx i hi p hp e
      exact hdm (List.mem_flatMap.mpr ⟨x, hx, hi⟩) (List.mem_map.mpr ⟨p, hp, e.symm⟩)
    refine ⟨?_, ?_, ?_, ?_⟩
    · intro x hx y hy p p' hp hp' e
      rcases List.eq_nil_or_concat' p with rfl | ⟨r, m, rfl⟩
      · exact (List.map_eq_nil_iff.mp e.symm).symm
      · rcases List.eq_nil_or_concat' p' with rfl | ⟨r', m', rfl⟩
        · simp at e
        · refine hinj _ (hLM x hx r m hp) _ (hLM y hy r' m' hp') ?_
          rw [modItem_concat, modItem_concat]
          simp only [List.map_append, List.map_cons, List.map_nil] at e
          obtain ⟨e1, e2⟩ := List.append_inj' e rfl
          rw [e1, List.singleton_inj.mp e2]
    · rintro x q ⟨hx, ct, hd⟩ y hy m hm e
      refine hdm x hx _ (own_defines hd (hstr x hx)) _ (hLM y hy x.1 m hm) ?_
      rw [modItem_concat, e]
    · rintro x q t ⟨hx, ct, hd⟩ ht
      have key : ∀ i, i ∈ own (x.1.map Heck.snake) (.table t) → i.name ≠ QIdent.simple t.ident →
          (⟨x.1.map Heck.snake, .type, QIdent.simple q⟩ : Item) = i → False := by
        intro i hi hne e
        have hxt : x ≠ (x.1, .table t) := by
          intro h
          rw [h] at hd
          cases hd
          exact hne (by rw [← e])
        exact hdisj hx ht hxt (own_defines hd (hstr x hx)) (e ▸ hi)
      constructor
      · intro e
        refine key ⟨x.1.map Heck.snake, .type, QIdent.simple t.ident ++ c!"Args"⟩ (by simp [own_table]) (by simp) ?_
        rw [e]
      · intro e
        refine key ⟨x.1.map Heck.snake, .type, QIdent.simple t.ident ++ c!"Builder"⟩ (by simp [own_table]) (by simp) ?_
        rw [e]
    · intro p e e' h1 h2 hs
      by_contra hne
      have hne' : ((p, .enum e) : List Ident × Node) ≠ (p, .enum e') := by
        intro h; cases h; exact hne rfl
      have hd : List.Disjoint (own (p.map Heck.snake) (.enum e)) (own (p.map Heck.snake) (.enum e')) := hdisj h1 h2 hne'
      refine hd (a := ⟨p.map Heck.snake, .value, c!"enum_name_" ++ Heck.snake (QIdent.simple e.ident)⟩) ?_ ?_
      · simp [own_enum]
      · simp [own_enum, hs]
  · intro hc
    have hmod : ∀ x ∈ itemsOf out, ∀ y ∈ itemsOf out, x.1.map Heck.snake = y.1.map Heck.snake → x.1 = y.1 :=
      fun x hx y hy h => hc.modules x hx y hy _ _ List.prefix_rfl List.prefix_rfl h
    have hname : ∀ x ∈ itemsOf out, ∀ q ct, x.2.defines = some (q, ct) → q = x.1 ++ [QIdent.simple q] := by
      intro x hx q ct hd
      have := (hfacts hx).2
      rwa [defines_ident hd] at this
    refine ⟨⟨fun x hx => own_nodup _ _ (hfacts hx).1, ?_⟩, ?_, ?_⟩
    · refine hdist.imp_of_mem ?_
      intro x y hx hy hq i hi hi'
      obtain ⟨m1, c1⟩ := own_cases hi (hfacts hx).1
      obtain ⟨m2, c2⟩ := own_cases hi' (hfacts hy).1
      have hxy := hmod x hx y hy (m1.symm.trans m2)
      rcases c1 with ⟨s1, q, ct, d1, n1⟩ | ⟨s1, t, d1, n1⟩ | ⟨s1, e, d1, n1⟩ <;>
        rcases c2 with ⟨s2, q', ct', d2, n2⟩ | ⟨s2, t', d2, n2⟩ | ⟨s2, e', d2, n2⟩
      · refine hq _ _ _ _ d1 d2 ?_
        rw [hname x hx q ct d1, hname y hy q' ct' d2, hxy, ← n1, ← n2]
      · have := hc.derived x q t' ⟨hx, ct, d1⟩ (by rw [hxy, ← d2]; exact hy)
        rw [← n1] at this
        exact n2.elim this.1 this.2
      · rw [s1] at s2; cases s2
      · have := hc.derived y q' t ⟨hy, ct', d2⟩ (by rw [← hxy, ← d1]; exact hx)
        rw [← n2] at this
        exact n1.elim this.1 this.2
      · have d1' : x.2.defines = some (t.ident, .table) := by rw [d1]; rfl
        have d2' : y.2.defines = some (t'.ident, .table) := by rw [d2]; rfl
        have same : QIdent.simple t.ident = QIdent.simple t'.ident → False := by
          intro e
          refine hq _ _ _ _ d1' d2' ?_
          rw [hname x hx _ _ d1', hname y hy _ _ d2', hxy, e]
        rcases n1 with n1 | n1 <;> rcases n2 with n2 | n2 <;> rw [n1] at n2
        · exact same (List.append_cancel_right n2)
        · have := append_inj_last n2 (by simp) (by simp)
          revert this; decide
        · have := append_inj_last n2 (by simp) (by simp)
          revert this; decide
        · exact same (List.append_cancel_right n2)
      · rw [s1] at s2; cases s2
      · rw [s1] at s2; cases s2
      · rw [s1] at s2; cases s2
      · have hn : Heck.snake (QIdent.simple e.ident) = Heck.snake (QIdent.simple e'.ident) :=
          List.append_cancel_left (n1.symm.trans n2)
        have := hc.enums x.1 e e' (by rw [← d1]; exact hx) (by rw [hxy, ← d2]; exact hy) hn
        exact hq _ _ _ _ (by rw [d1]; rfl) (by rw [d2]; rfl) this
    · intro p hp p' hp' e
      obtain ⟨x, hx, hpx⟩ := hML p hp
      obtain ⟨y, hy, hpy⟩ := hML p' hp'
      refine hc.modules x hx y hy p p' hpx hpy ?_
      rw [← hMe] at hp hp'
      obtain ⟨m, _, h1⟩ := modPathsL_under [] out p hp
      obtain ⟨m', _, h2⟩ := modPathsL_under [] out p' hp'
      rcases List.eq_nil_or_concat' p with rfl | ⟨r, m, rfl⟩
      · have := h1.length_le; simp at this
      rcases List.eq_nil_or_concat' p' with rfl | ⟨r', m', rfl⟩
      · have := h2.length_le; simp at this
      rw [modItem_concat, modItem_concat, Item.mk.injEq] at e
      simp [e.1, e.2.2]
    · intro i hi hi'
      obtain ⟨x, hx, hi⟩ := List.mem_flatMap.mp hi
      obtain ⟨p, hp, rfl⟩ := List.mem_map.mp hi'
      obtain ⟨y, hy, hpy⟩ := hML p hp
      rw [← hMe] at hp
      obtain ⟨m, _, h1⟩ := modPathsL_under [] out p hp
      rcases List.eq_nil_or_concat' p with rfl | ⟨r, m, rfl⟩
      · have := h1.length_le; simp at this
      rw [modItem_concat] at hi
      obtain ⟨m1, c1⟩ := own_cases hi (hfacts hx).1
      have hr : r = x.1 := hc.modules y hy x hx r x.1 ((List.prefix_append _ _).trans hpy) List.prefix_rfl m1
      rcases c1 with ⟨s1, q, ct, d1, n1⟩ | ⟨s1, t, d1, n1⟩ | ⟨s1, e, d1, n1⟩
      · exact hc.modType x q ⟨hx, ct, d1⟩ y hy m (hr ▸ hpy) n1
      · rcases n1 with n1 | n1
        · have := snake_no_upper m 'A' (by simp only at n1; rw [n1]; simp)
          revert this; decide
        · have := snake_no_upper m 'B' (by simp only at n1; rw [n1]; simp)
          revert this; decide
      · cases s1

/-- The name of the type that an element declares. -/
def typeId : Ast.Element → Option Str
  | .table t | .struct t => some t.id
  | .enum e => some e.id
  | .union u => some u.id
  | _ => none

/-- The namespace of a schema, as the modules around its items. -/
def nsOf (E : List Ast.Element) : List Ident := ((Ir.lastNs E).getD []).map Ir.fixIdentifier

/-- In one namespace: where the items come from. -/
inductive From (E : List Ast.Element) : List Ident × Node → Prop
  | table (d : Ast.Product) (t : Ir.Table) (h : .table d ∈ E) (hi : t.ident = nsOf E ++ [Ir.fixIdentifier d.id]) :
      From E (nsOf E, .table t)
  | struct (d : Ast.Product) (t : Ir.Struct) (h : .struct d ∈ E) (hi : t.ident = nsOf E ++ [Ir.fixIdentifier d.id]) :
      From E (nsOf E, .struct t)
  | enum (d : Ast.Enum) (t : Ir.Enum) (h : .enum d ∈ E) (hi : t.ident = nsOf E ++ [Ir.fixIdentifier d.id]) :
      From E (nsOf E, .enum t)
  | union (d : Ast.Union) (t : Ir.Union) (h : .union d ∈ E) (hi : t.ident = nsOf E ++ [Ir.fixIdentifier d.id]) :
      From E (nsOf E, .union t)
  | tag (d : Ast.Union) (t : Ir.Enum) (h : .union d ∈ E)
      (hi : t.ident = nsOf E ++ [c!"butte_gen", Ir.fixIdentifier (d.id ++ c!"Type")]) :
      From E (nsOf E ++ [c!"butte_gen"], .enum t)
  | rpc (r : Ir.Rpc) : From E (nsOf E, .rpc r)

theorem from_of {s : Ast.Schema} {out : List Node} (h1 : OneNamespace s.elements) (hb : Ir.build s = some (.ok out))
    {x : List Ident × Node} (hx : x ∈ itemsOf out) : From s.elements x := by
  obtain ⟨groups, g1, g2, _⟩ := (Ir.C46_resolved_partial (.inl h1) hb).1
  obtain ⟨hm, hp⟩ := Ir.holds_path g1 hx
  obtain ⟨g, hg, hxg⟩ := List.mem_flatten.mp hm
  obtain ⟨p, _, el, hel, hem⟩ := Ir.all₂_right g2 hg
  rw [h1 p el hel (Ir.declares_not_ns (Ir.emits_declares hem))] at hem
  have hmem := List.mem_of_getElem? hel
  obtain ⟨path, n⟩ := x
  simp only at hp hxg
  subst hp
  have e1 : ∀ i, (Ir.nameIn (Ir.lastNs s.elements) i).dropLast = nsOf s.elements := fun i => by
    rw [Ir.nameIn, List.dropLast_concat]; rfl
  have e2 : ∀ i, (Ir.tagEnumIn (Ir.lastNs s.elements) i).dropLast = nsOf s.elements ++ [c!"butte_gen"] := fun i => by
    rw [Ir.tagEnumIn, List.dropLast_append_cons]; rfl
  cases hem with
  | table t _ _ _ =>
    simp only [List.mem_singleton] at hxg; subst hxg
    simp only [Ir.Node.ident, e1]
    exact .table t _ hmem rfl
  | struct t _ _ =>
    simp only [List.mem_singleton] at hxg; subst hxg
    simp only [Ir.Node.ident, e1]
    exact .struct t _ hmem rfl
  | enum t _ _ =>
    simp only [List.mem_singleton] at hxg; subst hxg
    simp only [Ir.Node.ident, e1]
    exact .enum t _ hmem rfl
  | union u _ _ =>
    simp only [List.mem_cons, List.not_mem_nil, or_false] at hxg
    rcases hxg with rfl | rfl
    · simp only [Ir.Node.ident, e2]
      exact .tag u _ hmem rfl
    · simp only [Ir.Node.ident, e1]
      exact .union u _ hmem rfl
  | rpc r _ _ =>
    simp only [List.mem_singleton] at hxg; subst hxg
    simp only [Ir.Node.ident, e1]
    exact .rpc _

theorem group_of {s : Ast.Schema} {out : List Node} (h1 : OneNamespace s.elements) (hb : Ir.build s = some (.ok out))
    {el : Ast.Element} (h : el ∈ s.elements) (hd : Ir.declares el = true) :
    ∃ N l, Ir.Emits N (Ir.lastNs s.elements) el l ∧ ∀ n ∈ l, (n.ident.dropLast, n) ∈ itemsOf out := by
  obtain ⟨groups, g1, g2, _⟩ := (Ir.C46_resolved_partial (.inl h1) hb).1
  obtain ⟨p, hp⟩ := List.mem_iff_getElem?.mp h
  obtain ⟨g, hg, el', hel, hem⟩ := Ir.all₂_left g2 (Ir.mem_declPositions.mpr ⟨el, hp, hd⟩)
  rw [hp] at hel; cases hel
  rw [h1 p el hp (Ir.declares_not_ns hd)] at hem
  exact ⟨_, g, hem, fun n hn => Ir.holds_mem g1 (List.mem_flatten.mpr ⟨g, hg, hn⟩)⟩

/-- **C71** in one namespace, in terms of the schema: the program introduces no name twice if and only if no type is
called like a table followed by `Args` or `Builder`, no two enums have the same name in snake case, no two unions have the
same name (followed by `Type`) in snake case, and no type is called `butte_gen` if there is a union. -/
theorem C71_one_namespace_partial {s : Ast.Schema} {out : List Node} {items : List Item} (h1 : OneNamespace s.elements)
    (hb : Ir.build s = some (.ok out)) (hg : emitsAll [] out = some items) :
    items.Nodup ↔
      (∀ t, .table t ∈ s.elements → ∀ el ∈ s.elements, ∀ i, typeId el = some i →
        Ir.fixIdentifier i ≠ Ir.fixIdentifier t.id ++ c!"Args" ∧ Ir.fixIdentifier i ≠ Ir.fixIdentifier t.id ++ c!"Builder") ∧
      (∀ e e', .enum e ∈ s.elements → .enum e' ∈ s.elements →
        Heck.snake (Ir.fixIdentifier e.id) = Heck.snake (Ir.fixIdentifier e'.id) →
        Ir.fixIdentifier e.id = Ir.fixIdentifier e'.id) ∧
      (∀ u u', .union u ∈ s.elements → .union u' ∈ s.elements →
        Heck.snake (Ir.fixIdentifier (u.id ++ c!"Type")) = Heck.snake (Ir.fixIdentifier (u'.id ++ c!"Type")) →
        Ir.fixIdentifier (u.id ++ c!"Type") = Ir.fixIdentifier (u'.id ++ c!"Type")) ∧
      ((∃ u, .union u ∈ s.elements) → ∀ el ∈ s.elements, ∀ i, typeId el = some i → Ir.fixIdentifier i ≠ c!"butte_gen") := by
  rw [C71_iff_partial hb hg]
  have hfrom := fun x hx => @from_of s out h1 hb x hx
  have hsimple : ∀ (l : List Ident) (i : Ident), QIdent.simple (l ++ [i]) = i := fun l i => by simp [QIdent.simple]
  have hsimple2 : ∀ (l : List Ident) (j i : Ident), QIdent.simple (l ++ [j, i]) = i := fun l j i => by simp [QIdent.simple]
  have hpath : ∀ (l : List Ident) (i : Ident), (l ++ [i]).dropLast = l := fun l i => by simp
  have table : ∀ t, .table t ∈ s.elements → ∃ t', (nsOf s.elements, .table t') ∈ itemsOf out ∧
      t'.ident = nsOf s.elements ++ [Ir.fixIdentifier t.id] := by
    intro t ht
    obtain ⟨N, l, hem, hl⟩ := group_of h1 hb ht rfl
    cases hem with
    | table _ fields root h =>
      have := hl _ (List.mem_singleton.mpr rfl)
      rw [Ir.Node.ident, Ir.nameIn, hpath] at this
      exact ⟨_, this, rfl⟩
  have enum : ∀ t, .enum t ∈ s.elements → ∃ t', (nsOf s.elements, .enum t') ∈ itemsOf out ∧
      t'.ident = nsOf s.elements ++ [Ir.fixIdentifier t.id] := by
    intro t ht
    obtain ⟨N, l, hem, hl⟩ := group_of h1 hb ht rfl
    cases hem with
    | enum _ base h =>
      have := hl _ (List.mem_singleton.mpr rfl)
      rw [Ir.Node.ident, Ir.nameIn, hpath] at this
      exact ⟨_, this, rfl⟩
  have tag : ∀ t, .union t ∈ s.elements → ∃ t', (nsOf s.elements ++ [c!"butte_gen"], .enum t') ∈ itemsOf out ∧
      t'.ident = nsOf s.elements ++ [c!"butte_gen", Ir.fixIdentifier (t.id ++ c!"Type")] := by
    intro t ht
    obtain ⟨N, l, hem, hl⟩ := group_of h1 hb ht rfl
    cases hem with
    | union _ vs h =>
      have := hl _ List.mem_cons_self
      rw [Ir.Node.ident, Ir.tagEnumIn, List.dropLast_append_cons] at this
      exact ⟨_, this, rfl⟩
  have type : ∀ el ∈ s.elements, ∀ i, typeId el = some i →
      ∃ x, Defines out x (nsOf s.elements ++ [Ir.fixIdentifier i]) ∧ x.1 = nsOf s.elements := by
    intro el hel i hi
    have key : ∀ n ct, (n.ident.dropLast, n) ∈ itemsOf out → n.defines = some (nsOf s.elements ++ [Ir.fixIdentifier i], ct) →
        ∃ x, Defines out x (nsOf s.elements ++ [Ir.fixIdentifier i]) ∧ x.1 = nsOf s.elements := by
      intro n ct hn hd
      refine ⟨_, ⟨hn, ct, hd⟩, ?_⟩
      rw [defines_ident hd, hpath]
    cases el with
    | table t =>
      cases hi
      obtain ⟨N, l, hem, hl⟩ := group_of h1 hb hel rfl
      cases hem with
      | table _ fields root h => exact key _ _ (hl _ (List.mem_singleton.mpr rfl)) rfl
    | struct t =>
      cases hi
      obtain ⟨N, l, hem, hl⟩ := group_of h1 hb hel rfl
      cases hem with
      | struct _ fields h => exact key _ _ (hl _ (List.mem_singleton.mpr rfl)) rfl
    | enum e =>
      cases hi
      obtain ⟨N, l, hem, hl⟩ := group_of h1 hb hel rfl
      cases hem with
      | enum _ base h => exact key _ _ (hl _ (List.mem_singleton.mpr rfl)) rfl
    | union u =>
      cases hi
      obtain ⟨N, l, hem, hl⟩ := group_of h1 hb hel rfl
      cases hem with
      | union _ vs h => exact key _ _ (hl _ (List.mem_cons_of_mem _ List.mem_cons_self)) rfl
    | _ => cases hi
  have defs : ∀ x q, Defines out x q → x.1 = nsOf s.elements → ∃ el ∈ s.elements, ∃ i, typeId el = some i ∧
      QIdent.simple q = Ir.fixIdentifier i := by
    rintro x q ⟨hx, ct, hd⟩ hn
    cases hfrom x hx with
    | table d t h hi => cases hd; exact ⟨_, h, _, rfl, by rw [hi, hsimple]⟩
    | struct d t h hi => cases hd; exact ⟨_, h, _, rfl, by rw [hi, hsimple]⟩
    | enum d t h hi => cases hd; exact ⟨_, h, _, rfl, by rw [hi, hsimple]⟩
    | union d t h hi => cases hd; exact ⟨_, h, _, rfl, by rw [hi, hsimple]⟩
    | tag d t h hi => simp at hn
    | rpc r => cases hd
  have under : ∀ x ∈ itemsOf out, x.1 <+: nsOf s.elements ++ [c!"butte_gen"] := by
    intro x hx
    cases hfrom x hx <;> first | exact List.prefix_append _ _ | exact List.prefix_rfl
  constructor
  · intro hc
    refine ⟨?_, ?_, ?_, ?_⟩
    · intro t ht el hel i hi
      obtain ⟨t', ht', et⟩ := table t ht
      obtain ⟨x, hx, ex⟩ := type el hel i hi
      have := hc.derived x _ t' hx (by rw [ex]; exact ht')
      rwa [et, hsimple, hsimple] at this
    · intro e e' he he' hs
      obtain ⟨t, ht, et⟩ := enum e he
      obtain ⟨t', ht', et'⟩ := enum e' he'
      have := hc.enums _ t t' ht ht' (by rw [et, et', hsimple, hsimple]; exact hs)
      rw [et, et'] at this
      simpa using this
    · intro e e' he he' hs
      obtain ⟨t, ht, et⟩ := tag e he
      obtain ⟨t', ht', et'⟩ := tag e' he'
      have := hc.enums _ t t' ht ht' (by rw [et, et', hsimple2, hsimple2]; exact hs)
      rw [et, et'] at this
      simpa using this
    · rintro ⟨u, hu⟩ el hel i hi e
      obtain ⟨t', ht', et⟩ := tag u hu
      obtain ⟨x, hx, ex⟩ := type el hel i hi
      have := hc.modType x _ hx _ ht' c!"butte_gen" (by rw [ex]; exact List.prefix_rfl)
      rw [hsimple, e] at this
      exact this (by decide)
  · rintro ⟨hA, hE, hU, hB⟩
    refine ⟨?_, ?_, ?_, ?_⟩
    · intro x hx y hy p p' hp hp' e
      have hl : p.length = p'.length := by simpa using congrArg List.length e
      exact (List.prefix_of_prefix_length_le (hp.trans (under x hx)) (hp'.trans (under y hy)) (Nat.le_of_eq hl)).eq_of_length hl
    · intro x q hx y hy m hm e
      have hm' := hm.trans (under y hy)
      have hx1 : x.1 = nsOf s.elements := by
        have := hm'.length_le
        cases hfrom x hx.1 <;> first | rfl | (simp at this)
      rw [hx1, List.prefix_append_right_inj] at hm'
      have hmb : m = c!"butte_gen" := by simpa using hm'
      subst hmb
      have hu : ∃ u, Ast.Element.union u ∈ s.elements := by
        rw [hx1] at hm
        have := hm.length_le
        cases hfrom y hy with
        | tag d t h hi => exact ⟨d, h⟩
        | _ => simp at this; omega
      obtain ⟨el, hel, i, hi, eq⟩ := defs x q hx hx1
      refine hB hu el hel i hi ?_
      rw [← eq, ← e]
      decide
    · intro x q t hx ht
      have hx1 : x.1 = nsOf s.elements ∧ ∃ d, .table d ∈ s.elements ∧ t.ident = nsOf s.elements ++ [Ir.fixIdentifier d.id] := by
        generalize hn : ((x.1, Node.table t) : List Ident × Node) = y at ht
        cases hfrom y ht with
        | table d t' h hi =>
          rw [Prod.mk.injEq, Node.table.injEq] at hn
          obtain ⟨e1, rfl⟩ := hn
          exact ⟨e1, d, h, hi⟩
        | _ => rw [Prod.mk.injEq] at hn; cases hn.2
      obtain ⟨hx1, d, hd, et⟩ := hx1
      obtain ⟨el, hel, i, hi, eq⟩ := defs x q hx hx1
      rw [et, eq, hsimple]
      exact hA d hd el hel i hi
    · intro p e e' h h' hs
      have src : ∀ e, (p, Node.enum e) ∈ itemsOf out →
          p = nsOf s.elements ∧ (∃ d, .enum d ∈ s.elements ∧ e.ident = nsOf s.elements ++ [Ir.fixIdentifier d.id]) ∨
          p = nsOf s.elements ++ [c!"butte_gen"] ∧ (∃ d, .union d ∈ s.elements ∧
            e.ident = nsOf s.elements ++ [c!"butte_gen", Ir.fixIdentifier (d.id ++ c!"Type")]) := by
        intro e h
        generalize hn : ((p, Node.enum e) : List Ident × Node) = y at h
        cases hfrom y h with
        | enum d t' h3 hi =>
          rw [Prod.mk.injEq, Node.enum.injEq] at hn
          obtain ⟨e1, rfl⟩ := hn
          exact .inl ⟨e1, d, h3, hi⟩
        | tag d t' h3 hi =>
          rw [Prod.mk.injEq, Node.enum.injEq] at hn
          obtain ⟨e1, rfl⟩ := hn
          exact .inr ⟨e1, d, h3, hi⟩
        | _ => rw [Prod.mk.injEq] at hn; cases hn.2
      rcases src e h with ⟨p1, d, hd, e1⟩ | ⟨p1, d, hd, e1⟩ <;> rcases src e' h' with ⟨p2, d', hd', e2⟩ | ⟨p2, d', hd', e2⟩
      · rw [e1, e2, hsimple, hsimple] at hs
        rw [e1, e2, hE d d' hd hd' hs]
      · rw [p1] at p2; simp at p2
      · rw [p1] at p2; simp at p2
      · rw [e1, e2, hsimple2, hsimple2] at hs
        rw [e1, e2, hU d d' hd hd' hs]

/-! ### Schemas whose programs do not compile -/

/-- **C71** is false, in each of the four ways: `table T { } table TArgs { }`; `enum FooBar: ubyte { X } enum foo_bar: ubyte
{ X }` (two functions `enum_name_foo_bar`); `table butte_gen { } union U { butte_gen }` (a module and a struct); and
`namespace FooBar; table T { } namespace foo_bar; table T { }` (two modules `foo_bar`). All these schemas are
accepted. -/
theorem C71_refuted : ∀ E ∈ ([
      [Ir.exTable c!"T" [], Ir.exTable c!"TArgs" []],
      [Ir.exEnum c!"FooBar", Ir.exEnum c!"foo_bar"],
      [Ir.exTable c!"butte_gen" [], Ir.exUnion c!"U" [c!"butte_gen"]],
      [Ir.exNs c!"FooBar", Ir.exTable c!"T" [], Ir.exNs c!"foo_bar", Ir.exTable c!"T" []]] : List (List Ast.Element)),
    ∃ out items, Ir.build ⟨[], E⟩ = some (.ok out) ∧ emitsAll [] out = some items ∧ ¬ items.Nodup := by
  intro E hE
  simp only [List.mem_cons, List.not_mem_nil, or_false] at hE
  rcases hE with rfl | rfl | rfl | rfl
  · exact ⟨_, _, rfl, rfl, by decide⟩
  · exact ⟨_, _, rfl, rfl, by decide⟩
  · exact ⟨_, _, rfl, rfl, by decide⟩
  · exact ⟨_, _, rfl, rfl, by decide⟩

/-- A schema whose program introduces ten names, none of them twice. -/
example : ∃ out items, Ir.build exPaths = some (.ok out) ∧ emitsAll [] out = some items ∧ items.Nodup ∧
    items.length = 10 ∧ Clashfree out := by
  refine ⟨_, _, rfl, rfl, by decide, by decide, ?_⟩
  exact (C71_iff_partial (s := exPaths) rfl rfl).mp (by decide)

end Butte.Gen
