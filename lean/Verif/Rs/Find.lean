import Verif.Rs.Locate
/-
The items, functions and constants of what is emitted for one declaration.
-/
namespace Butte.Rs
open Ir (QIdent Node Ident itemsOf)
open Gen (formatIdent formatIdent_eq)

/-- `items` is part of the program, in module `m`; nothing around it adds to it. -/
def Placed (P : Program) (m : List Str) (items : List Item) : Prop :=
  ∃ A B, P = A ++ items.map (m, ·) ++ B ∧ Closed A ∧ Closed B

theorem emit_placed {gm : Mode} {out : List Node} {P : Program} (h : emit gm out = some P) {x : List Ident × Node}
    (hx : x ∈ itemsOf out) : ∃ Q, emitNode gm (x.1.map Heck.snake) x.2 = some Q ∧
      ∃ A B, P = A ++ Q ++ B ∧ Closed A ∧ Closed B := by
  obtain ⟨A, Q, B, h1, h2, h3, h4⟩ := emitNodes_split gm [] out P (by simpa [emit] using h) x hx
  exact ⟨Q, h2, A, B, h1, h3, h4⟩

theorem emit_table {gm : Mode} {out : List Node} {P : Program} (h : emit gm out = some P) {m : List Ident} {t : Ir.Table}
    (hx : (m, Node.table t) ∈ itemsOf out) : ∃ items, emitTable gm t = some items ∧ Placed P (m.map Heck.snake) items := by
  obtain ⟨Q, hq, hp⟩ := emit_placed h hx
  simp only [emitNode, Option.bind_eq_bind, Option.bind_eq_some_iff, Option.pure_def, Option.some.injEq] at hq
  obtain ⟨items, hi, rfl⟩ := hq
  exact ⟨items, hi, hp⟩

theorem emit_enum {gm : Mode} {out : List Node} {P : Program} (h : emit gm out = some P) {m : List Ident} {t : Ir.Enum}
    (hx : (m, Node.enum t) ∈ itemsOf out) : ∃ items, emitEnum t = some items ∧ Placed P (m.map Heck.snake) items := by
  obtain ⟨Q, hq, hp⟩ := emit_placed h hx
  simp only [emitNode, Option.bind_eq_bind, Option.bind_eq_some_iff, Option.pure_def, Option.some.injEq] at hq
  obtain ⟨items, hi, rfl⟩ := hq
  exact ⟨items, hi, hp⟩

theorem emit_union {gm : Mode} {out : List Node} {P : Program} (h : emit gm out = some P) {m : List Ident} {t : Ir.Union}
    (hx : (m, Node.union t) ∈ itemsOf out) : ∃ items, emitUnion t = some items ∧ Placed P (m.map Heck.snake) items := by
  obtain ⟨Q, hq, hp⟩ := emit_placed h hx
  simp only [emitNode, Option.bind_eq_bind, Option.bind_eq_some_iff, Option.pure_def, Option.some.injEq] at hq
  obtain ⟨items, hi, rfl⟩ := hq
  exact ⟨items, hi, hp⟩

theorem Placed.mem_names {P : Program} {m : List Str} {items : List Item} (h : Placed P m items) {s : Gen.Space} {n : Str}
    (hn : ∃ i ∈ items, i.introduces = some (s, n)) : (⟨m, s, n⟩ : Gen.Item) ∈ P.names := by
  obtain ⟨A, B, rfl, -, -⟩ := h
  obtain ⟨i, hi, hs⟩ := hn
  simp only [Program.names, List.mem_filterMap]
  exact ⟨(m, i), by simp [hi], by simp [hs]⟩

theorem Placed.item {P : Program} {m : List Str} {items : List Item} (h : Placed P m items) (hn : P.names.Nodup) {n : Str}
    {i : Item} (hi : items.filter (fun x => x.introduces == some (.type, n)) = [i]) : itemOf P m n = some i := by
  obtain ⟨A, B, rfl, -, -⟩ := h
  have hm : i ∈ items.filter (fun x => x.introduces == some (.type, n)) := by rw [hi]; simp
  rw [List.mem_filter] at hm
  rw [itemOf_local hn]
  · simp only [itemOf, List.filter_map, Function.comp_def, beq_self_eq_true, Bool.true_and, hi, List.map_cons, List.map_nil]
  · simp only [Program.names, List.mem_filterMap, List.mem_map]
    refine ⟨(m, i), ⟨i, hm.1, rfl⟩, ?_⟩
    rw [eq_of_beq hm.2]
    rfl

theorem Placed.impls {P : Program} {m : List Str} {items : List Item} (h : Placed P m items) (hn : P.names.Nodup) {n : Str}
    (hi : ∃ i ∈ items, i.introduces = some (.type, n)) (hp : ∀ t, n ≠ primName t) :
    implsOf P m n = implsOf (items.map (m, ·)) m n := by
  obtain ⟨A, B, rfl, hA, hB⟩ := h
  refine implsOf_local hA hB hn ?_ hp
  obtain ⟨i, hi, hs⟩ := hi
  simp only [Program.names, List.mem_filterMap]
  exact ⟨(m, i), by simp [hi], by simp [hs]⟩

/-! ### Tables -/

theorem ne_append_left (n s : Str) (h : s ≠ []) : n ++ s ≠ n := by
  intro e
  have := congrArg List.length e
  simp at this
  exact h this

theorem ne_append_left' (n s : Str) (h : s ≠ []) : n ≠ n ++ s := (ne_append_left n s h).symm

/-- The names of a table do not get in the way of what the generated code relies on. -/
structure Plain (n : Str) : Prop where
  prim : ∀ t, n ≠ primName t
  param : n ≠ c!"B"

section
variable {P : Program} {m : List Str} {n : Str} {args : List (Str × Ty)} {dflt : List Item} {adds : List Fn}
  {consts : List (Str × Fin 65536)} {accs : List Fn} {fields : List Ir.Field} {ds : List (Str × Expr)}

theorem table_item (h : Placed P m (tableItems n args dflt adds consts accs fields)) (hn : P.names.Nodup)
    (hd : dflt = [] ∨ dflt = [argsDefault n ds]) : itemOf P m n = some (tableStruct n) := by
  apply h.item hn
  rcases hd with rfl | rfl <;>
  simp [tableItems, tableStruct, tableFrom, tableInto, tableCreate, tableAccess, tableFollow, tableFollowBuf, builderStruct,
    builderImpl, argsDefault, Item.introduces]

theorem args_item (h : Placed P m (tableItems n args dflt adds consts accs fields)) (hn : P.names.Nodup)
    (hd : dflt = [] ∨ dflt = [argsDefault n ds]) : itemOf P m (n ++ c!"Args") = some (.struct (n ++ c!"Args") [] args) := by
  apply h.item hn
  rcases hd with rfl | rfl <;>
  simp [tableItems, tableStruct, tableFrom, tableInto, tableCreate, tableAccess, tableFollow, tableFollowBuf, builderStruct,
    builderImpl, argsDefault, Item.introduces]

theorem builder_item (h : Placed P m (tableItems n args dflt adds consts accs fields)) (hn : P.names.Nodup)
    (hd : dflt = [] ∨ dflt = [argsDefault n ds]) : itemOf P m (n ++ c!"Builder") = some (builderStruct n) := by
  apply h.item hn
  rcases hd with rfl | rfl <;>
  simp [tableItems, tableStruct, tableFrom, tableInto, tableCreate, tableAccess, tableFollow, tableFollowBuf, builderStruct,
    builderImpl, argsDefault, Item.introduces]

/-- `butte::Follow` -/
def followPath : Ty := .path [c!"butte", c!"Follow"]

theorem table_impls (h : Placed P m (tableItems n args dflt adds consts accs fields)) (hn : P.names.Nodup)
    (hd : dflt = [] ∨ dflt = [argsDefault n ds]) (hp : Plain n) : implsOf P m n =
      [([c!"B"], some (.app [c!"From"] tableB), [], [fromTableFn]), ([], none, consts, [createFn n fields]),
       ([c!"B"], none, [], accs ++ [getRootFn]), ([], some followPath, [], [followFn]),
       ([c!"B"], some (.path [c!"butte", c!"FollowBuf"]), [], [followBufFn])] := by
  rw [h.impls hn ⟨tableStruct n, by simp [tableItems], rfl⟩ hp.prim]
  have hb := hp.param
  rcases hd with rfl | rfl <;>
  simp [implsOf, tableItems, tableStruct, tableFrom, tableInto, tableCreate, tableAccess, tableFollow, tableFollowBuf,
    builderStruct, builderImpl, argsDefault, headName, hb, tableB, followPath]

theorem args_impls (h : Placed P m (tableItems n args [argsDefault n ds] adds consts accs fields)) (hn : P.names.Nodup)
    (hp : ∀ t, n ++ c!"Args" ≠ primName t) : implsOf P m (n ++ c!"Args") =
      [([], some (.path [c!"Default"]), [], [defaultFn ds])] := by
  rw [h.impls hn ⟨.struct (n ++ c!"Args") [] args, by simp [tableItems], rfl⟩ hp]
  simp [implsOf, tableItems, tableStruct, tableFrom, tableInto, tableCreate, tableAccess, tableFollow, tableFollowBuf,
    builderStruct, builderImpl, argsDefault, headName, tableB]

theorem builder_impls (h : Placed P m (tableItems n args dflt adds consts accs fields)) (hn : P.names.Nodup)
    (hd : dflt = [] ∨ dflt = [argsDefault n ds]) (hp : ∀ t, n ++ c!"Builder" ≠ primName t) :
    implsOf P m (n ++ c!"Builder") = [([], none, [], adds ++ [newFn n, finishFn n fields])] := by
  rw [h.impls hn ⟨builderStruct n, by simp [tableItems], rfl⟩ hp]
  rcases hd with rfl | rfl <;>
  simp [implsOf, tableItems, tableStruct, tableFrom, tableInto, tableCreate, tableAccess, tableFollow, tableFollowBuf,
    builderStruct, builderImpl, argsDefault, headName, tableB]

end

/-! ### Enums and unions -/

theorem primName_ne_nil (t : STy) : primName t ≠ [] := by cases t <;> simp [primName]

section
variable {P : Program} {m : List Str} {n base : Str} {vs : List (Str × Lit)}

theorem enum_item (h : Placed P m (enumItems n base vs)) (hn : P.names.Nodup) : itemOf P m n = some (.enum n base vs) := by
  apply h.item hn
  simp [enumItems, enumDefault, enumFollow, enumTryFrom, enumInto, enumPush, Item.introduces]

theorem enum_impls (h : Placed P m (enumItems n base vs)) (hn : P.names.Nodup) (hp : ∀ t, n ≠ primName t)
    (hb : ∃ t, base = primName t) : implsOf P m n =
      [([], some (.path [c!"Default"]), [], [enumDefaultFn n vs]), ([], some followPath, [], [enumFollowFn base]),
       ([], some (.app [c!"std", c!"convert", c!"TryFrom"] (.path [base])), [], [enumTryFromFn n base vs]),
       ([], some (.path [c!"butte", c!"Push"]), [], [enumPushFn base])] := by
  rw [h.impls hn ⟨.enum n base vs, by simp [enumItems], rfl⟩ hp]
  have hne : base ≠ n := by
    obtain ⟨t, rfl⟩ := hb
    exact (hp t).symm
  simp [implsOf, enumItems, enumDefault, enumFollow, enumTryFrom, enumInto, enumPush, headName, hne, followPath]

theorem union_item {e : List Str} {us : List (Str × Ty)} (h : Placed P m (unionItems n e us)) (hn : P.names.Nodup) :
    itemOf P m n = some (.union n us) := by
  apply h.item hn
  simp [unionItems, Item.introduces]

theorem union_impls {e : List Str} {us : List (Str × Ty)} (h : Placed P m (unionItems n e us)) (hn : P.names.Nodup)
    (hp : ∀ t, n ≠ primName t) : implsOf P m n = [([], none, [], [getTypeFn n e us])] := by
  rw [h.impls hn ⟨.union n us, by simp [unionItems], rfl⟩ hp]
  simp [implsOf, unionItems, headName]

end

/-! ### Functions and constants -/

theorem filter_name {fs : List Fn} (h : (fs.map (·.name)).Nodup) {g : Fn} (hg : g ∈ fs) :
    fs.filter (fun x => x.name == g.name) = [g] := by
  induction fs with
  | nil => cases hg
  | cons a fs ih =>
    simp only [List.map_cons, List.nodup_cons] at h
    rcases List.mem_cons.mp hg with rfl | hg
    · rw [List.filter_cons_of_pos (by simp), List.filter_eq_nil_iff.mpr]
      intro x hx hc
      exact h.1 (List.mem_map.mpr ⟨x, hx, eq_of_beq hc⟩)
    · rw [List.filter_cons_of_neg, ih h.2 hg]
      intro hc
      exact h.1 (List.mem_map.mpr ⟨g, hg, (eq_of_beq hc).symm⟩)

theorem filter_name_nil {fs : List Fn} {f : Str} (h : f ∉ fs.map (·.name)) : fs.filter (fun x => x.name == f) = [] := by
  rw [List.filter_eq_nil_iff]
  intro x hx hc
  exact h (List.mem_map.mpr ⟨x, hx, eq_of_beq hc⟩)

theorem filter_fst {β : Type} {l : List (Str × β)} (h : (l.map (·.1)).Nodup) {a : Str} {b : β} (hb : (a, b) ∈ l) :
    l.filter (fun x => x.1 == a) = [(a, b)] := by
  induction l with
  | nil => cases hb
  | cons y l ih =>
    simp only [List.map_cons, List.nodup_cons] at h
    rcases List.mem_cons.mp hb with rfl | hb
    · rw [List.filter_cons_of_pos (by simp), List.filter_eq_nil_iff.mpr]
      intro x hx hc
      exact h.1 (List.mem_map.mpr ⟨x, hx, eq_of_beq hc⟩)
    · rw [List.filter_cons_of_neg, ih h.2 hb]
      intro hc
      exact h.1 (List.mem_map.mpr ⟨_, hb, (eq_of_beq hc).symm⟩)

theorem accessor_name {n : Str} {ns : Option QIdent} {f : Ir.Field} {g : Fn} (h : accessor n ns f = some g) :
    g.name = Heck.snake f.ident := by
  simp only [accessor, Option.bind_eq_bind, Option.bind_eq_some_iff, Option.pure_def, Option.some.injEq] at h
  obtain ⟨s, hs, _, _, _, _, _, _, _, _, rfl⟩ := h
  exact formatIdent_eq hs

theorem addMethod_name {n : Str} {ns : Option QIdent} {f : Ir.Field} {g : Fn} (h : addMethod n ns f = some g) :
    g.name = addName f := by
  simp only [addMethod, Option.bind_eq_bind, Option.bind_eq_some_iff, Option.pure_def, Option.some.injEq] at h
  obtain ⟨_, _, _, _, rfl⟩ := h
  rfl

theorem map_of_forall₂ {α β γ : Type} {R : α → β → Prop} {f : α → γ} {g : β → γ} (h : ∀ a b, R a b → g b = f a)
    {l : List α} {l' : List β} (hl : List.Forall₂ R l l') : l'.map g = l.map f := by
  induction hl with
  | nil => rfl
  | cons hab _ ih => rw [List.map_cons, List.map_cons, h _ _ hab, ih]

section
variable {P : Program} {m : List Str} {n : Str} {args : List (Str × Ty)} {dflt : List Item} {adds : List Fn}
  {consts : List (Str × Fin 65536)} {accs : List Fn} {fields : List Ir.Field} {ds : List (Str × Expr)} {gm : Mode}
  {ns : Option QIdent}

theorem table_create (h : Placed P m (tableItems n args dflt adds consts accs fields)) (hn : P.names.Nodup)
    (hd : dflt = [] ∨ dflt = [argsDefault n ds]) (hp : Plain n) (ha : fields.mapM (accessor n ns) = some accs)
    (hnd : (fields.map (fun f => Heck.snake f.ident) ++ [c!"create", c!"get_root"]).Nodup) :
    fnOf P m n c!"create" = some ([], createFn n fields) := by
  have e := map_of_forall₂ (fun a b => accessor_name (f := a) (g := b)) (mapM_forall₂ ha)
  have h1 : c!"create" ∉ accs.map (·.name) := by
    rw [e]
    rw [List.nodup_append] at hnd
    exact fun hc => hnd.2.2 _ hc _ (by simp) rfl
  simp [fnOf, table_impls h hn hd hp, createFn, getRootFn, filter_name_nil h1]

theorem table_getRoot (h : Placed P m (tableItems n args dflt adds consts accs fields)) (hn : P.names.Nodup)
    (hd : dflt = [] ∨ dflt = [argsDefault n ds]) (hp : Plain n) (ha : fields.mapM (accessor n ns) = some accs)
    (hnd : (fields.map (fun f => Heck.snake f.ident) ++ [c!"create", c!"get_root"]).Nodup) :
    fnOf P m n c!"get_root" = some ([c!"B"], getRootFn) := by
  have e := map_of_forall₂ (fun a b => accessor_name (f := a) (g := b)) (mapM_forall₂ ha)
  have h1 : c!"get_root" ∉ accs.map (·.name) := by
    rw [e]
    rw [List.nodup_append] at hnd
    exact fun hc => hnd.2.2 _ hc _ (by simp) rfl
  simp [fnOf, table_impls h hn hd hp, createFn, getRootFn, filter_name_nil h1]

theorem table_accessor (h : Placed P m (tableItems n args dflt adds consts accs fields)) (hn : P.names.Nodup)
    (hd : dflt = [] ∨ dflt = [argsDefault n ds]) (hp : Plain n) (ha : fields.mapM (accessor n ns) = some accs)
    (hnd : (fields.map (fun f => Heck.snake f.ident) ++ [c!"create", c!"get_root"]).Nodup) {f : Ir.Field} (hf : f ∈ fields) :
    ∃ g, accessor n ns f = some g ∧ fnOf P m n (Heck.snake f.ident) = some ([c!"B"], g) := by
  have hfa := mapM_forall₂ ha
  have e := map_of_forall₂ (fun a b => accessor_name (f := a) (g := b)) hfa
  obtain ⟨g, hg, hag⟩ := forall₂_left hfa f hf
  refine ⟨g, hag, ?_⟩
  rw [List.nodup_append] at hnd
  have h1 : Heck.snake f.ident ≠ c!"create" := hnd.2.2 _ (List.mem_map.mpr ⟨f, hf, rfl⟩) _ (by simp)
  have h2 : Heck.snake f.ident ≠ c!"get_root" := hnd.2.2 _ (List.mem_map.mpr ⟨f, hf, rfl⟩) _ (by simp)
  have h3 := filter_name (fs := accs) (by rw [e]; exact hnd.1) hg
  rw [accessor_name hag] at h3
  simp [fnOf, table_impls h hn hd hp, createFn, getRootFn, h1.symm, h2.symm, h3]

theorem consts_names (hc : (List.zipIdx fields).mapM (fun x => slotConst gm x.2 x.1) = some consts) :
    consts.map (·.1) = fields.map offsetId := by
  have := map_of_forall₂ (f := fun x : Ir.Field × Nat => offsetId x.1) (g := fun x : Str × Fin 65536 => x.1) (by
    intro a b h
    simp only [slotConst, Option.bind_eq_bind, Option.bind_eq_some_iff, Option.pure_def, Option.some.injEq] at h
    obtain ⟨s, _, rfl⟩ := h
    rfl) (mapM_forall₂ hc)
  rw [this]
  conv_rhs => rw [← List.zipIdx_map_fst 0 fields, List.map_map]
  rfl

/-- The constant of field number `i`. -/
theorem table_const (h : Placed P m (tableItems n args dflt adds consts accs fields)) (hn : P.names.Nodup)
    (hd : dflt = [] ∨ dflt = [argsDefault n ds]) (hp : Plain n)
    (hc : (List.zipIdx fields).mapM (fun x => slotConst gm x.2 x.1) = some consts)
    (hnd : (fields.map (fun f => Heck.shouty f.ident)).Nodup) {i : Nat} {f : Ir.Field} (hf : fields[i]? = some f) :
    ∃ s, Gen.slotOf gm i = some s ∧ constOf P m n (offsetId f) = some s := by
  obtain ⟨b, hb, hs⟩ := forall₂_left (mapM_forall₂ hc) (f, i) (by
    rw [List.mem_iff_getElem?]
    exact ⟨i, by simp [List.getElem?_zipIdx, hf]⟩)
  simp only [slotConst, Option.bind_eq_bind, Option.bind_eq_some_iff, Option.pure_def, Option.some.injEq] at hs
  obtain ⟨s, hs, rfl⟩ := hs
  refine ⟨s, hs, ?_⟩
  have hnd' : (consts.map (·.1)).Nodup := by
    rw [consts_names hc]
    have : fields.map offsetId = (fields.map (fun f => Heck.shouty f.ident)).map (c!"VT_" ++ ·) := by
      simp [offsetId]
    rw [this]
    exact hnd.map fun a b hab => List.append_cancel_left hab
  have hfl := filter_fst hnd' hb
  simp [constOf, table_impls h hn hd hp, hfl]

theorem builder_new (h : Placed P m (tableItems n args dflt adds consts accs fields)) (hn : P.names.Nodup)
    (hd : dflt = [] ∨ dflt = [argsDefault n ds]) (hp : ∀ t, n ++ c!"Builder" ≠ primName t)
    (ha : fields.mapM (addMethod n ns) = some adds) : fnOf P m (n ++ c!"Builder") c!"new" = some ([], newFn n) := by
  have e := map_of_forall₂ (fun a b => addMethod_name (f := a) (g := b)) (mapM_forall₂ ha)
  have h1 : c!"new" ∉ adds.map (·.name) := by
    rw [e]
    simp [addName]
  simp [fnOf, builder_impls h hn hd hp, newFn, finishFn, filter_name_nil h1]

theorem builder_finish (h : Placed P m (tableItems n args dflt adds consts accs fields)) (hn : P.names.Nodup)
    (hd : dflt = [] ∨ dflt = [argsDefault n ds]) (hp : ∀ t, n ++ c!"Builder" ≠ primName t)
    (ha : fields.mapM (addMethod n ns) = some adds) :
    fnOf P m (n ++ c!"Builder") c!"finish" = some ([], finishFn n fields) := by
  have e := map_of_forall₂ (fun a b => addMethod_name (f := a) (g := b)) (mapM_forall₂ ha)
  have h1 : c!"finish" ∉ adds.map (·.name) := by
    rw [e]
    simp [addName]
  simp [fnOf, builder_impls h hn hd hp, newFn, finishFn, filter_name_nil h1]

theorem builder_add (h : Placed P m (tableItems n args dflt adds consts accs fields)) (hn : P.names.Nodup)
    (hd : dflt = [] ∨ dflt = [argsDefault n ds]) (hp : ∀ t, n ++ c!"Builder" ≠ primName t)
    (ha : fields.mapM (addMethod n ns) = some adds) (hnd : (fields.map (·.ident)).Nodup) {f : Ir.Field} (hf : f ∈ fields) :
    ∃ g, addMethod n ns f = some g ∧ fnOf P m (n ++ c!"Builder") (addName f) = some ([], g) := by
  have hfa := mapM_forall₂ ha
  have e := map_of_forall₂ (fun a b => addMethod_name (f := a) (g := b)) hfa
  obtain ⟨g, hg, hag⟩ := forall₂_left hfa f hf
  refine ⟨g, hag, ?_⟩
  have hnd' : (adds.map (·.name)).Nodup := by
    rw [e]
    have : fields.map addName = (fields.map (·.ident)).map (c!"add_" ++ ·) := by simp [addName]
    rw [this]
    exact hnd.map fun a b hab => List.append_cancel_left hab
  have h3 := filter_name hnd' hg
  rw [addMethod_name hag] at h3
  simp [fnOf, builder_impls h hn hd hp, newFn, finishFn, h3]
  simp [addName]

theorem args_default (h : Placed P m (tableItems n args [argsDefault n ds] adds consts accs fields)) (hn : P.names.Nodup)
    (hp : ∀ t, n ++ c!"Args" ≠ primName t) : fnOf P m (n ++ c!"Args") c!"default" = some ([], defaultFn ds) := by
  simp [fnOf, args_impls h hn hp, defaultFn]

end

section
variable {P : Program} {m : List Str} {n base : Str} {vs : List (Str × Lit)}

theorem enum_default (h : Placed P m (enumItems n base vs)) (hn : P.names.Nodup) (hp : ∀ t, n ≠ primName t)
    (hb : ∃ t, base = primName t) : fnOf P m n c!"default" = some ([], enumDefaultFn n vs) := by
  simp [fnOf, enum_impls h hn hp hb, enumDefaultFn, enumFollowFn, enumTryFromFn, enumPushFn]

theorem enum_tryFrom (h : Placed P m (enumItems n base vs)) (hn : P.names.Nodup) (hp : ∀ t, n ≠ primName t)
    (hb : ∃ t, base = primName t) : fnOf P m n c!"try_from" = some ([], enumTryFromFn n base vs) := by
  simp [fnOf, enum_impls h hn hp hb, enumDefaultFn, enumFollowFn, enumTryFromFn, enumPushFn]

theorem enum_follow (h : Placed P m (enumItems n base vs)) (hn : P.names.Nodup) (hp : ∀ t, n ≠ primName t)
    (hb : ∃ t, base = primName t) : fnOf P m n c!"follow" = some ([], enumFollowFn base) := by
  simp [fnOf, enum_impls h hn hp hb, enumDefaultFn, enumFollowFn, enumTryFromFn, enumPushFn]

theorem enum_push (h : Placed P m (enumItems n base vs)) (hn : P.names.Nodup) (hp : ∀ t, n ≠ primName t)
    (hb : ∃ t, base = primName t) : fnOf P m n c!"push" = some ([], enumPushFn base) := by
  simp [fnOf, enum_impls h hn hp hb, enumDefaultFn, enumFollowFn, enumTryFromFn, enumPushFn]

theorem union_getType {e : List Str} {us : List (Str × Ty)} (h : Placed P m (unionItems n e us)) (hn : P.names.Nodup)
    (hp : ∀ t, n ≠ primName t) : fnOf P m n c!"get_type" = some ([], getTypeFn n e us) := by
  simp [fnOf, union_impls h hn hp, getTypeFn]

end

end Butte.Rs
