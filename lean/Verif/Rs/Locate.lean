import Verif.Rs.Eval
import Verif.Gen.Items
/-
Where things are in an emitted program: names, items, `impl`s.
-/
namespace Butte.Rs
open Ir (QIdent Node Ident itemsOf)
open Gen (formatIdent formatIdent_eq)

theorem names_append (A B : Program) : Program.names (A ++ B) = A.names ++ B.names := by
  simp [Program.names, List.filterMap_append]

theorem names_cons (x : List Str × Item) (B : Program) : Program.names (x :: B) =
    (x.2.introduces.map fun y => (⟨x.1, y.1, y.2⟩ : Gen.Item)).toList ++ B.names := by
  unfold Program.names
  rw [List.filterMap_cons]
  cases h : x.2.introduces <;> simp

theorem names_nil : Program.names [] = [] := rfl

/-- Every `impl` is for a primitive type or for something declared in the same module; if it converts from something, that
is the case of the source as well. -/
structure Closed (Q : Program) : Prop where
  head : ∀ x ∈ Q, ∀ gs tr self cs fs h, x.2 = .impl gs tr self cs fs → headName self = some h → h ∉ gs →
    (∃ t, h = primName t) ∨ (⟨x.1, .type, h⟩ : Gen.Item) ∈ Q.names
  source : ∀ x ∈ Q, ∀ tr p self cs fs, x.2 = .impl [] (some (.app tr (.path p))) self cs fs →
    ∃ k, p = [k] ∧ ((∃ t, k = primName t) ∨ (⟨x.1, .type, k⟩ : Gen.Item) ∈ Q.names)

theorem Closed.nil : Closed [] := ⟨by simp, by simp⟩

theorem Closed.append {A B : Program} (ha : Closed A) (hb : Closed B) : Closed (A ++ B) := by
  constructor
  · intro x hx gs tr self cs fs h e hh hg
    rcases List.mem_append.mp hx with hx | hx
    · exact (ha.head x hx gs tr self cs fs h e hh hg).imp_right fun hm => by rw [names_append]; simp [hm]
    · exact (hb.head x hx gs tr self cs fs h e hh hg).imp_right fun hm => by rw [names_append]; simp [hm]
  · intro x hx tr p self cs fs e
    rcases List.mem_append.mp hx with hx | hx
    · obtain ⟨k, hk, h⟩ := ha.source x hx tr p self cs fs e
      exact ⟨k, hk, h.imp_right fun hm => by rw [names_append]; simp [hm]⟩
    · obtain ⟨k, hk, h⟩ := hb.source x hx tr p self cs fs e
      exact ⟨k, hk, h.imp_right fun hm => by rw [names_append]; simp [hm]⟩

theorem Closed.cons_mod {B : Program} (p : List Str) (m : Str) (hb : Closed B) : Closed ((p, .mod m) :: B) := by
  constructor
  · intro x hx gs tr self cs fs h e hh hg
    rcases List.mem_cons.mp hx with rfl | hx
    · cases e
    · exact (hb.head x hx gs tr self cs fs h e hh hg).imp_right fun hm => by rw [names_cons]; simp [hm]
  · intro x hx tr p self cs fs e
    rcases List.mem_cons.mp hx with rfl | hx
    · cases e
    · obtain ⟨k, hk, h⟩ := hb.source x hx tr p self cs fs e
      exact ⟨k, hk, h.imp_right fun hm => by rw [names_cons]; simp [hm]⟩

/-! ### One item -/

theorem mapM_forall₂ {α β : Type} {f : α → Option β} : ∀ {l : List α} {l' : List β}, l.mapM f = some l' →
    List.Forall₂ (fun a b => f a = some b) l l'
  | [], l', h => by
    simp only [List.mapM_nil, Option.pure_def, Option.some.injEq] at h
    subst h; exact .nil
  | a :: l, l', h => by
    simp only [List.mapM_cons, Option.pure_def, Option.bind_eq_bind, Option.bind_eq_some_iff, Option.some.injEq] at h
    obtain ⟨b, hb, bs, hbs, rfl⟩ := h
    exact .cons hb (mapM_forall₂ hbs)

theorem forall₂_left {α β : Type} {R : α → β → Prop} {l : List α} {l' : List β} (h : List.Forall₂ R l l') :
    ∀ a ∈ l, ∃ b ∈ l', R a b := by
  induction h with
  | nil => simp
  | cons h _ ih =>
    intro a ha
    rcases List.mem_cons.mp ha with rfl | ha
    · exact ⟨_, List.mem_cons_self, h⟩
    · obtain ⟨b, hb, hr⟩ := ih a ha
      exact ⟨b, List.mem_cons_of_mem _ hb, hr⟩

/-- All items of a table. -/
def tableItems (n : Str) (args : List (Str × Ty)) (dflt : List Item) (adds : List Fn) (consts : List (Str × Fin 65536))
    (accs : List Fn) (fields : List Ir.Field) : List Item :=
  [tableStruct n, tableFrom n, tableInto n, tableCreate n consts fields, tableAccess n accs, tableFollow n,
      tableFollowBuf n, .struct (n ++ c!"Args") [] args] ++ dflt ++ [builderStruct n, builderImpl n adds fields]

theorem emitTable_eq {gm : Mode} {t : Ir.Table} {items : List Item} (h : emitTable gm t = some items) :
    ∃ args dflt adds consts accs, formatIdent (QIdent.simple t.ident) = some (QIdent.simple t.ident) ∧
      (∀ f ∈ t.fields, formatIdent f.ident = some f.ident) ∧
      t.fields.mapM (argField (QIdent.namespace t.ident)) = some args ∧
      ((canDefault t.fields = false ∧ dflt = []) ∨ (canDefault t.fields = true ∧
        ∃ ds, t.fields.mapM (argDefault (QIdent.namespace t.ident)) = some ds ∧
          dflt = [argsDefault (QIdent.simple t.ident) ds])) ∧
      t.fields.mapM (addMethod (QIdent.simple t.ident) (QIdent.namespace t.ident)) = some adds ∧
      (List.zipIdx t.fields).mapM (fun x => slotConst gm x.2 x.1) = some consts ∧
      t.fields.mapM (accessor (QIdent.simple t.ident) (QIdent.namespace t.ident)) = some accs ∧
      items = tableItems (QIdent.simple t.ident) args dflt adds consts accs t.fields := by
  simp only [emitTable, Option.bind_eq_bind, Option.bind_eq_some_iff, Option.pure_def, Option.some.injEq] at h
  obtain ⟨n, hn, is, his, args, hargs, dflt, hd, adds, hadds, consts, hc, accs, ha, h⟩ := h
  have := formatIdent_eq hn
  subst this
  refine ⟨args, dflt, adds, consts, accs, hn, ?_, hargs, ?_, hadds, hc, ha, h.symm⟩
  · intro f hf
    obtain ⟨v, _, hv⟩ := forall₂_left (mapM_forall₂ his) f hf
    rw [hv, formatIdent_eq hv]
  · unfold defaultItems at hd
    cases hcd : canDefault t.fields
    · simp only [hcd, Bool.false_eq_true, if_false, Option.some.injEq] at hd
      exact .inl ⟨rfl, hd.symm⟩
    · simp only [hcd, if_true, Option.map_eq_some_iff] at hd
      obtain ⟨ds, h1, h2⟩ := hd
      exact .inr ⟨rfl, ds, h1, h2.symm⟩

/-- All items of an enum. -/
def enumItems (n base : Str) (vs : List (Str × Lit)) : List Item :=
  [.enum n base vs, enumDefault n vs, enumFollow n base, enumTryFrom n base vs, enumInto n base vs, enumPush n base,
    .fn (enumNameFn n vs)]

theorem emitEnum_eq {e : Ir.Enum} {items : List Item} (h : emitEnum e = some items) :
    ∃ vs, formatIdent (QIdent.simple e.ident) = some (QIdent.simple e.ident) ∧
      (List.zipIdx e.variants).mapM (variantLit (baseName e.base)) = some vs ∧
      items = enumItems (QIdent.simple e.ident) (baseName e.base) vs := by
  simp only [emitEnum, Option.bind_eq_bind, Option.bind_eq_some_iff, Option.pure_def, Option.some.injEq] at h
  obtain ⟨n, hn, vs, hv, h⟩ := h
  have := formatIdent_eq hn
  subst this
  exact ⟨vs, hn, hv, h.symm⟩

/-- All items of a union. -/
def unionItems (n : Str) (e : List Str) (vs : List (Str × Ty)) : List Item :=
  [.union n vs, .impl [] none (.path [n]) [] [getTypeFn n e vs]]

theorem emitUnion_eq {u : Ir.Union} {items : List Item} (h : emitUnion u = some items) :
    ∃ e vs, formatIdent (QIdent.simple u.ident) = some (QIdent.simple u.ident) ∧
      pathTokens (QIdent.relative u.enumIdent (QIdent.namespace u.ident)) = some e ∧
      u.variants.mapM (unionVariant (QIdent.namespace u.ident)) = some vs ∧
      items = unionItems (QIdent.simple u.ident) e vs := by
  simp only [emitUnion, Option.bind_eq_bind, Option.bind_eq_some_iff, Option.pure_def, Option.some.injEq] at h
  obtain ⟨n, hn, e, he, vs, hv, h⟩ := h
  have := formatIdent_eq hn
  subst this
  exact ⟨e, vs, hn, he, hv, h.symm⟩

theorem headName_app (n : Str) (t : Ty) : headName (.app [n] t) = some n := rfl
theorem headName_path (n : Str) : headName (.path [n]) = some n := rfl

/-! ### The whole program -/

mutual
/-- The names of the emitted program are those of `Gen.emits`. -/
theorem emitNode_names (gm : Mode) (path : List Str) : ∀ (n : Node) (P : Program), emitNode gm path n = some P →
    Gen.emits path n = some P.names
  | .table t, P, h => by
    simp only [emitNode, Option.bind_eq_bind, Option.bind_eq_some_iff, Option.pure_def, Option.some.injEq] at h
    obtain ⟨items, h, rfl⟩ := h
    obtain ⟨args, dflt, adds, consts, accs, -, -, -, hd, -, -, -, rfl⟩ := emitTable_eq h
    rcases hd with ⟨-, rfl⟩ | ⟨-, ds, -, rfl⟩ <;>
      simp [tableItems, Gen.emits, Program.names, Item.introduces, tableStruct, tableFrom, tableInto, tableCreate,
        tableAccess, tableFollow, tableFollowBuf, builderStruct, builderImpl, argsDefault]
  | .struct s, P, h => by simp [emitNode] at h
  | .enum e, P, h => by
    simp only [emitNode, Option.bind_eq_bind, Option.bind_eq_some_iff, Option.pure_def, Option.some.injEq] at h
    obtain ⟨items, h, rfl⟩ := h
    obtain ⟨vs, -, -, rfl⟩ := emitEnum_eq h
    simp [enumItems, Gen.emits, Program.names, Item.introduces, enumDefault, enumFollow, enumTryFrom, enumInto, enumPush, enumNameFn]
  | .union u, P, h => by
    simp only [emitNode, Option.bind_eq_bind, Option.bind_eq_some_iff, Option.pure_def, Option.some.injEq] at h
    obtain ⟨items, h, rfl⟩ := h
    obtain ⟨e, vs, -, -, -, rfl⟩ := emitUnion_eq h
    simp [Gen.emits, Program.names, Item.introduces, unionItems]
  | .rpc _, P, h => by
    simp only [emitNode, Option.some.injEq] at h
    subst h; rfl
  | .namespace i ns, P, h => by
    simp only [emitNode, Option.bind_eq_bind, Option.bind_eq_some_iff, Option.pure_def, Option.some.injEq] at h
    obtain ⟨m, hm, items, hi, rfl⟩ := h
    simp only [Gen.emits, hm, emitNodes_names gm _ ns items hi, Option.bind_eq_bind, Option.bind_some]
    rw [names_cons]
    rfl
theorem emitNodes_names (gm : Mode) (path : List Str) : ∀ (ns : List Node) (P : Program), emitNodes gm path ns = some P →
    Gen.emitsAll path ns = some P.names
  | [], P, h => by
    simp only [emitNodes, Option.some.injEq] at h
    subst h; rfl
  | n :: ns, P, h => by
    simp only [emitNodes, Option.bind_eq_bind, Option.bind_eq_some_iff, Option.pure_def, Option.some.injEq] at h
    obtain ⟨a, ha, b, hb, rfl⟩ := h
    simp only [Gen.emitsAll, emitNode_names gm path n a ha, emitNodes_names gm path ns b hb, Option.bind_eq_bind,
      Option.bind_some, names_append]
    rfl
end

theorem closed_of {path : List Str} {items : List Item} (d : List Str)
    (hd : ∀ n ∈ d, (⟨path, .type, n⟩ : Gen.Item) ∈ Program.names (items.map (path, ·)))
    (h : ∀ x ∈ items, ∀ gs tr self cs fs, x = .impl gs tr self cs fs →
      (∀ h, headName self = some h → h ∉ gs → (∃ t, h = primName t) ∨ h ∈ d) ∧
      (∀ tr' p, gs = [] → tr = some (.app tr' (.path p)) → ∃ k, p = [k] ∧ ((∃ t, k = primName t) ∨ k ∈ d))) :
    Closed (items.map (path, ·)) := by
  constructor
  · intro x hx gs tr self cs fs n e hh hg
    obtain ⟨y, hy, rfl⟩ := List.mem_map.mp hx
    exact ((h y hy gs tr self cs fs e).1 n hh hg).imp_right (hd n)
  · intro x hx tr p self cs fs e
    obtain ⟨y, hy, rfl⟩ := List.mem_map.mp hx
    obtain ⟨k, hk, h⟩ := (h y hy _ _ self cs fs e).2 tr p rfl rfl
    exact ⟨k, hk, h.imp_right (hd k)⟩

mutual
theorem emitNode_closed (gm : Mode) (path : List Str) : ∀ (n : Node) (P : Program), emitNode gm path n = some P → Closed P
  | .table t, P, h => by
    simp only [emitNode, Option.bind_eq_bind, Option.bind_eq_some_iff, Option.pure_def, Option.some.injEq] at h
    obtain ⟨items, h, rfl⟩ := h
    obtain ⟨args, dflt, adds, consts, accs, -, -, -, hd, -, -, -, rfl⟩ := emitTable_eq h
    generalize QIdent.simple t.ident = n at *
    refine closed_of [n, n ++ c!"Args", n ++ c!"Builder"] ?_ ?_
    · rcases hd with ⟨-, rfl⟩ | ⟨-, ds, -, rfl⟩ <;>
      simp [tableItems, Program.names, Item.introduces, tableStruct, tableFrom, tableInto, tableCreate,
        tableAccess, tableFollow, tableFollowBuf, builderStruct, builderImpl, argsDefault]
    · intro x hx gs tr self cs fs e
      rcases hd with ⟨-, rfl⟩ | ⟨-, ds, -, rfl⟩ <;>
      simp only [tableItems, List.cons_append, List.nil_append, List.append_nil, List.mem_cons, List.not_mem_nil, or_false] at hx
      · rcases hx with rfl | rfl | rfl | rfl | rfl | rfl | rfl | rfl | rfl | rfl <;> cases e <;> simp [headName, tableB]
      · rcases hx with rfl | rfl | rfl | rfl | rfl | rfl | rfl | rfl | rfl | rfl | rfl <;> cases e <;> simp [headName, tableB]
  | .struct s, P, h => by simp [emitNode] at h
  | .enum e, P, h => by
    simp only [emitNode, Option.bind_eq_bind, Option.bind_eq_some_iff, Option.pure_def, Option.some.injEq] at h
    obtain ⟨items, h, rfl⟩ := h
    obtain ⟨vs, -, -, rfl⟩ := emitEnum_eq h
    generalize QIdent.simple e.ident = n at *
    refine closed_of [n] ?_ ?_
    · simp [enumItems, Program.names, Item.introduces, enumDefault, enumFollow, enumTryFrom, enumInto, enumPush, enumNameFn]
    · intro x hx gs tr self cs fs e'
      simp only [enumItems, List.mem_cons, List.not_mem_nil, or_false] at hx
      rcases hx with rfl | rfl | rfl | rfl | rfl | rfl | rfl <;> cases e' <;> simp [headName, baseName]
  | .union u, P, h => by
    simp only [emitNode, Option.bind_eq_bind, Option.bind_eq_some_iff, Option.pure_def, Option.some.injEq] at h
    obtain ⟨items, h, rfl⟩ := h
    obtain ⟨e, vs, -, -, -, rfl⟩ := emitUnion_eq h
    generalize QIdent.simple u.ident = n at *
    refine closed_of [n] ?_ ?_
    · simp [Program.names, Item.introduces, unionItems]
    · intro x hx gs tr self cs fs e'
      simp only [unionItems, List.mem_cons, List.not_mem_nil, or_false] at hx
      rcases hx with rfl | rfl <;> cases e' <;> simp [headName]
  | .rpc _, P, h => by
    simp only [emitNode, Option.some.injEq] at h
    subst h; exact .nil
  | .namespace i ns, P, h => by
    simp only [emitNode, Option.bind_eq_bind, Option.bind_eq_some_iff, Option.pure_def, Option.some.injEq] at h
    obtain ⟨m, hm, items, hi, rfl⟩ := h
    exact (emitNodes_closed gm _ ns items hi).cons_mod _ _
theorem emitNodes_closed (gm : Mode) (path : List Str) : ∀ (ns : List Node) (P : Program), emitNodes gm path ns = some P →
    Closed P
  | [], P, h => by
    simp only [emitNodes, Option.some.injEq] at h
    subst h; exact .nil
  | n :: ns, P, h => by
    simp only [emitNodes, Option.bind_eq_bind, Option.bind_eq_some_iff, Option.pure_def, Option.some.injEq] at h
    obtain ⟨a, ha, b, hb, rfl⟩ := h
    exact (emitNode_closed gm path n a ha).append (emitNodes_closed gm path ns b hb)
end

mutual
/-- The code of one item, in its surroundings. -/
theorem emitNode_split (gm : Mode) (R : List Ident) : ∀ (n : Node) (P : Program), emitNode gm (R.map Heck.snake) n = some P →
    ∀ x ∈ n.leaves R, ∃ A Q B, P = A ++ Q ++ B ∧ emitNode gm (x.1.map Heck.snake) x.2 = some Q ∧ Closed A ∧ Closed B
  | .table _, P, h, x, hx | .struct _, P, h, x, hx | .enum _, P, h, x, hx | .union _, P, h, x, hx | .rpc _, P, h, x, hx => by
    simp only [Ir.Node.leaves, List.mem_singleton] at hx
    subst hx
    exact ⟨[], P, [], by simp, h, .nil, .nil⟩
  | .namespace i ns, P, h, x, hx => by
    simp only [emitNode, Option.bind_eq_bind, Option.bind_eq_some_iff, Option.pure_def, Option.some.injEq] at h
    obtain ⟨m, hm, items, hi, rfl⟩ := h
    have := formatIdent_eq hm
    subst this
    simp only [Ir.Node.leaves] at hx
    obtain ⟨A, Q, B, rfl, h1, h2, h3⟩ := emitNodes_split gm (R ++ [QIdent.simple i]) ns items (by simpa using hi) x hx
    exact ⟨_ :: A, Q, B, rfl, h1, h2.cons_mod _ _, h3⟩
theorem emitNodes_split (gm : Mode) (R : List Ident) : ∀ (ns : List Node) (P : Program),
    emitNodes gm (R.map Heck.snake) ns = some P →
    ∀ x ∈ Node.leavesL R ns, ∃ A Q B, P = A ++ Q ++ B ∧ emitNode gm (x.1.map Heck.snake) x.2 = some Q ∧ Closed A ∧ Closed B
  | [], P, h, x, hx => by cases hx
  | n :: ns, P, h, x, hx => by
    simp only [emitNodes, Option.bind_eq_bind, Option.bind_eq_some_iff, Option.pure_def, Option.some.injEq] at h
    obtain ⟨a, ha, b, hb, rfl⟩ := h
    simp only [Ir.Node.leavesL, List.mem_append] at hx
    rcases hx with hx | hx
    · obtain ⟨A, Q, B, rfl, h1, h2, h3⟩ := emitNode_split gm R n a ha x hx
      exact ⟨A, Q, B ++ b, by simp, h1, h2, h3.append (emitNodes_closed gm _ ns b hb)⟩
    · obtain ⟨A, Q, B, rfl, h1, h2, h3⟩ := emitNodes_split gm R ns b hb x hx
      exact ⟨a ++ A, Q, B, by simp, h1, (emitNode_closed gm _ n a ha).append h2, h3⟩
end

/-! ### Looking things up -/

theorem itemOf_local {A Q B : Program} (hn : (A ++ Q ++ B).names.Nodup) {m : List Str} {n : Str}
    (h : (⟨m, .type, n⟩ : Gen.Item) ∈ Q.names) : itemOf (A ++ Q ++ B) m n = itemOf Q m n := by
  have none : ∀ (R : Program), (⟨m, .type, n⟩ : Gen.Item) ∉ R.names →
      R.filter (fun x => x.1 == m && x.2.introduces == some (.type, n)) = [] := by
    intro R hR
    rw [List.filter_eq_nil_iff]
    intro x hx hc
    apply hR
    simp only [Bool.and_eq_true, beq_iff_eq] at hc
    simp only [Program.names, List.mem_filterMap]
    exact ⟨x, hx, by rw [hc.2, ← hc.1]; rfl⟩
  rw [names_append, names_append, List.nodup_append, List.nodup_append] at hn
  obtain ⟨⟨-, -, h1⟩, -, h2⟩ := hn
  have hA := none A fun hA => h1 _ hA _ h rfl
  have hB := none B fun hB => h2 _ (List.mem_append_right _ h) _ hB rfl
  simp only [itemOf, List.filter_append, hA, hB, List.nil_append, List.append_nil]

theorem implsOf_local {A Q B : Program} (hA : Closed A) (hB : Closed B) (hn : (A ++ Q ++ B).names.Nodup) {m : List Str}
    {n : Str} (h : (⟨m, .type, n⟩ : Gen.Item) ∈ Q.names) (hp : ∀ t, n ≠ primName t) :
    implsOf (A ++ Q ++ B) m n = implsOf Q m n := by
  have none : ∀ (R : Program), Closed R → (⟨m, .type, n⟩ : Gen.Item) ∉ R.names → implsOf R m n = [] := by
    intro R hc hR
    simp only [implsOf, List.filterMap_eq_nil_iff]
    intro x hx
    split
    · rename_i gs tr self cs fs e
      rw [if_neg]
      rintro ⟨rfl, h2, h3⟩
      rcases hc.head x hx gs tr self cs fs n e h2 h3 with ⟨t, ht⟩ | hm
      · exact hp t ht
      · exact hR hm
    · rfl
  rw [names_append, names_append, List.nodup_append, List.nodup_append] at hn
  obtain ⟨⟨-, -, h1⟩, -, h2⟩ := hn
  have hA := none A hA fun hA => h1 _ hA _ h rfl
  have hB := none B hB fun hB => h2 _ (List.mem_append_right _ h) _ hB rfl
  unfold implsOf at hA hB ⊢
  rw [List.filterMap_append, List.filterMap_append, hA, hB, List.nil_append, List.append_nil]

end Butte.Rs
