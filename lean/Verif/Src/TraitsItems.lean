import Verif.Src.TraitsOk
/-
The generated items keep the rules for traits: one item at a time.
-/
namespace Butte.Src
open Ir (QIdent Node Ident itemsOf)
open Rs (Program Hygienic modOf pathTokens fwdPath wipPath)

/-! ### Lists of items -/

theorem implFns_append : ∀ as bs : List ImplItem, implFns (as ++ bs) = implFns as ++ implFns bs
  | [], _ => rfl
  | .fn f :: as, bs => by simp [implFns, implFns_append as bs]
  | .const .. :: as, bs => by simp [implFns, implFns_append as bs]
  | .type .. :: as, bs => by simp [implFns, implFns_append as bs]

theorem implTypes_append : ∀ as bs : List ImplItem, implTypes (as ++ bs) = implTypes as ++ implTypes bs
  | [], _ => rfl
  | .fn f :: as, bs => by simp [implTypes, implTypes_append as bs]
  | .const .. :: as, bs => by simp [implTypes, implTypes_append as bs]
  | .type .. :: as, bs => by simp [implTypes, implTypes_append as bs]

theorem implFns_fns (fs : List Fn) : implFns (fs.map .fn) = fs := by
  induction fs with
  | nil => rfl
  | cons f fs ih => simp [implFns, ih]

theorem implTypes_fns (fs : List Fn) : implTypes (fs.map .fn) = [] := by
  induction fs with
  | nil => rfl
  | cons f fs ih => simp [implTypes, ih]

theorem slotConsts_only {gm : Mode} {xs : List (Ir.Field × Nat)} {cs : List ImplItem}
    (h : xs.mapM (fun x => Full.slotConst gm x.2 x.1) = some cs) : implFns cs = [] ∧ implTypes cs = [] := by
  induction xs generalizing cs with
  | nil =>
    cases h
    exact ⟨rfl, rfl⟩
  | cons x xs ih =>
    simp only [List.mapM_cons, Option.bind_eq_bind, Option.bind_eq_some_iff, Option.pure_def, Option.some.injEq] at h
    obtain ⟨c, hc, cs', hcs, rfl⟩ := h
    simp only [Full.slotConst, Option.bind_eq_bind, Option.bind_eq_some_iff, Option.pure_def, Option.some.injEq] at hc
    obtain ⟨_, -, rfl⟩ := hc
    simpa [implFns, implTypes] using ih hcs

/-! ### Tables -/

/-- What the code of a table relies on, about traits. -/
structure TableTraits (F : File) (m : List Str) (n : Str) (ns : Option QIdent) (fs : List Ir.Field) : Prop where
  hygienic : Hygienic F.prog
  own : ∀ sc : Rs.Scope, sc.Ok → sc.module = m → Rs.resolve F.prog sc [n] = some (.item m n)
  args : ∀ sc : Rs.Scope, sc.Ok → sc.module = m → Rs.resolve F.prog sc [n ++ c!"Args"] = some (.item m (n ++ c!"Args"))
  builder : ∀ sc : Rs.Scope, sc.Ok → sc.module = m → Rs.resolve F.prog sc [n ++ c!"Builder"] = some (.item m (n ++ c!"Builder"))
  item : ∃ fs, Rs.itemOf F.prog m n = some (.struct n [c!"B"] fs)
  argsItem : ∃ fs, Rs.itemOf F.prog m (n ++ c!"Args") = some (.struct (n ++ c!"Args") [] fs)
  fields : ∀ f ∈ fs, ∀ sc : Rs.Scope, sc.Ok → sc.module = m → KnownTy F sc ns f.ty

section
variable {F : File} {m : List Str} {n : Str} {ns : Option QIdent} {fs : List Ir.Field}

theorem TableTraits.ne_self (T : TableTraits F m n ns fs) : n ≠ c!"Self" := by
  rintro rfl
  have := T.own ⟨m, [], none⟩ (.inl rfl) rfl
  simp [Rs.resolve] at this

theorem TableTraits.ownAt (T : TableTraits F m n ns fs) (gs : List Str) (hg : gs = [] ∨ gs = [c!"B"]) (s : Option Rs.Def) :
    Rs.resolve F.prog ⟨m, gs, s⟩ [n] = some (.item m n) := T.own _ hg rfl

theorem TableTraits.tyB (T : TableTraits F m n ns fs) (s : Option Rs.Def) (a : Option Rs.RTy) (as : List (Str × Rs.RTy)) :
    Rs.tyOf F.prog ⟨⟨m, [c!"B"], s⟩, a, as⟩ (.app [n] (.path [c!"B"])) = some (.structApp m n (.param c!"B")) := by
  obtain ⟨fs', hi⟩ := T.item
  simp [Rs.tyOf, Rs.pathTy, Rs.appTy, resolve_B, T.ownAt _ (.inr rfl), hi]

theorem TableTraits.tyBytes (T : TableTraits F m n ns fs) (s : Option Rs.Def) (a : Option Rs.RTy) (as : List (Str × Rs.RTy)) :
    Rs.tyOf F.prog ⟨⟨m, [], s⟩, a, as⟩ (.app [n] (.ref (.slice (.path [c!"u8"])))) = some (.structApp m n .bytes) := by
  obtain ⟨fs', hi⟩ := T.item
  have A := Paths.of T.hygienic m (.inl rfl)
  simp [Rs.tyOf, Rs.appTy, A.u8, T.ownAt _ (.inl rfl), hi]

theorem TableTraits.tyTable (T : TableTraits F m n ns fs) (s : Option Rs.Def) (a : Option Rs.RTy) (as : List (Str × Rs.RTy)) :
    Rs.tyOf F.prog ⟨⟨m, [c!"B"], s⟩, a, as⟩ (.app [c!"butte", c!"Table"] (.path [c!"B"])) = some (.butteApp c!"Table" (.param c!"B")) := by
  have A := Paths.of T.hygienic m (.inr rfl)
  simp [Rs.tyOf, Rs.pathTy, Rs.appTy, resolve_B, A.butte, Rs.butteApps]

theorem TableTraits.tyArgs (T : TableTraits F m n ns fs) (s : Option Rs.Def) (a : Option Rs.RTy) (as : List (Str × Rs.RTy)) :
    Rs.tyOf F.prog ⟨⟨m, [], s⟩, a, as⟩ (.path [n ++ c!"Args"]) = some (.struct m (n ++ c!"Args")) := by
  obtain ⟨fs', hi⟩ := T.argsItem
  have h := fun s => T.args ⟨m, [], s⟩ (.inl rfl) rfl
  have hs : n ++ c!"Args" ≠ c!"Self" := by
    intro e
    have := h none
    rw [e] at this
    simp [Rs.resolve] at this
  simp [Rs.tyOf, Rs.pathTy, hs, h, hi]

theorem ty_self (P : Program) (sc : Rs.Scope) (s : Rs.RTy) (as : List (Str × Rs.RTy)) :
    Rs.tyOf P ⟨sc, some s, as⟩ (.path [c!"Self"]) = some s := by
  simp [Rs.tyOf, Rs.pathTy]

theorem ty_B (P : Program) (m : List Str) (s : Option Rs.Def) (a : Option Rs.RTy) (as : List (Str × Rs.RTy)) :
    Rs.tyOf P ⟨⟨m, [c!"B"], s⟩, a, as⟩ (.path [c!"B"]) = some (.param c!"B") := by
  simp [Rs.tyOf, Rs.pathTy, resolve_B]

open Lean.Parser.Tactic in
/-- Items, types and the rules spelled out. -/
macro "traits" A:term:max "[" hs:simpLemma,* "]" : tactic => `(tactic|
  simp [ItemTraits, DerivesOk, TraitImplOk, BoundsOk, FnTraits, Fn.exprs, Stmt.exprs, Expr.methods, exprsMethods, armsMethods,
    initsMethods, Reads, Expr.paths, exprsPaths, armsPaths, initsPaths, implFns, implTypes, implConsts, typeParams, Param.pass,
    headDef, LocalTy, Ty.args, argTys, traitFn, IsAsRef, Ty.erase, eraseArgs, Rs.traitSpec,
    Full.v, Full.selfTable, Full.ok, Full.newTable,
    Full.tableB, Full.ofB, Full.ofBytes, Full.bytes, Full.word, Full.wip, Full.errorTy, Full.resultTy, Full.optionTy, Full.fbbTy,
    Full.selfTy, Full.followTy, Full.innerResult, Full.tryFromTy, Full.asRef, wipPath, resolve_B,
    Paths.butte $A, Paths.std $A, Paths.str $A, Paths.usize $A, Paths.u8 $A, Paths.option $A, Paths.result $A, Paths.default $A,
    Paths.from_ $A, $hs,*])

theorem tableStruct_traits (T : TableTraits F m n ns fs) (doc : Ast.Comment) : ItemTraits F m (Full.tableStruct n doc) := by
  have A := Paths.of T.hygienic m (.inr rfl)
  have h : ∀ d ∈ common, Has F d [c!"B"] ⟨m, [c!"B"], none⟩ Full.tableB := by
    intro d hd
    have hB : Has F d [c!"B"] ⟨m, [c!"B"], none⟩ (Full.word c!"B") := .param (resolve_B _ _ _) (by simp)
    refine .butteOf (A.butte _ _) ?_ (by simpa [argTys] using hB)
    simp only [common, List.mem_cons, List.not_mem_nil, or_false] at hd
    rcases hd with rfl | rfl | rfl | rfl <;> decide
  simp only [Full.tableStruct, ItemTraits, DerivesOk]
  rw [derives_cons, derives_derive, derives_comment, List.append_nil]
  refine ⟨by decide, ?_⟩
  intro p hp
  obtain ⟨d, hd, rfl⟩ := List.mem_map.mp hp
  refine ⟨d, ?_, rfl, ?_, ?_⟩
  · simp only [List.mem_cons, List.not_mem_nil, or_false] at hd
    rcases hd with rfl | rfl | rfl | rfl <;> decide
  · simp only [List.mem_cons, List.not_mem_nil, or_false] at hd
    rcases hd with rfl | rfl | rfl | rfl <;> decide
  · simpa [typeParams] using h d hd

theorem tableFrom_traits (T : TableTraits F m n ns fs) : ItemTraits F m (Full.tableFrom n) := by
  have A := Paths.of T.hygienic m (.inr rfl)
  have hn := T.ownAt _ (.inr rfl)
  traits A [Full.tableFrom, hn, T.tyB, T.tyTable]

theorem tableInto_traits (T : TableTraits F m n ns fs) : ItemTraits F m (Full.tableInto n) := by
  have A := Paths.of T.hygienic m (.inr rfl)
  have hn := T.ownAt _ (.inr rfl)
  traits A [Full.tableInto, hn, T.tyB, T.tyTable]

theorem tableFollow_traits (T : TableTraits F m n ns fs) : ItemTraits F m (Full.tableFollow n) := by
  have A := Paths.of T.hygienic m (.inl rfl)
  have hn := T.ownAt _ (.inl rfl)
  traits A [Full.tableFollow, hn, T.tyBytes, ty_self]

theorem tableFollowBuf_traits (T : TableTraits F m n ns fs) : ItemTraits F m (Full.tableFollowBuf n) := by
  have A := Paths.of T.hygienic m (.inr rfl)
  have hn := T.ownAt _ (.inr rfl)
  traits A [Full.tableFollowBuf, hn, T.tyB, ty_self, ty_B]

/-! Methods that are called -/

theorem addCall_methods (f : Ir.Field) : ∀ e ∈ (Full.addCall f).exprs, ∀ x ∈ e.methods, x.2 = [] := by
  unfold Full.addCall
  split <;> simp [Stmt.exprs, Expr.methods, exprsMethods, Full.v, argTys]

theorem createFn_traits (sc : Rs.Scope) : FnTraits F sc (Full.createFn n fs) := by
  intro e he x hx _
  have : x.2 = [] := by
    simp only [Full.createFn, Fn.exprs, List.flatMap_cons, List.mem_append, List.mem_flatMap, List.mem_map] at he
    rcases he with (he | ⟨s, ⟨f, -, rfl⟩, he⟩) | he
    · simp only [Stmt.exprs, List.mem_singleton] at he
      subst he
      simp [Expr.methods, exprsMethods, Full.v] at hx
    · exact addCall_methods f e he x hx
    · simp only [Option.toList_some, List.mem_singleton] at he
      subst he
      simp only [Expr.methods, exprsMethods, Full.v, argTys, List.append_nil, List.mem_singleton] at hx
      rw [hx]
  simp [this]

theorem tableCreate_traits (T : TableTraits F m n ns fs) {gm : Mode} {cs : List ImplItem}
    (h : (List.zipIdx fs).mapM (fun x => Full.slotConst gm x.2 x.1) = some cs) : ItemTraits F m (Full.tableCreate n cs fs) := by
  obtain ⟨h1, h2⟩ := slotConsts_only h
  have hn := T.ownAt _ (.inl rfl)
  refine ⟨⟨by simp, by simp [typeParams]⟩, ?_, ?_⟩
  · rw [implFns_append, h1]
    simp only [implFns, List.nil_append, List.mem_singleton, forall_eq]
    exact createFn_traits _
  · refine ⟨?_, m, n, hn _⟩
    rw [implTypes_append, h2]
    rfl

theorem getExpr_methods (f : Ir.Field) (w : Ty) {d : Expr} (hd : d.methods = []) :
    (Full.getExpr n f w d).methods = [(c!"get", [w])] := by
  simp [Full.getExpr, Expr.methods, exprsMethods, Full.v, Full.slotExpr, argTys, hd]

theorem missing_methods (s : Str) : (Full.missing s).methods = [] := by simp [Full.missing, Expr.methods, exprsMethods]

theorem defaultValue_methods {t : Ty} {d : Ast.DefaultValue} {e : Expr} (h : Full.defaultValue t d = some e) : e.methods = [] := by
  cases d with
  | scalar s =>
    simp only [Full.defaultValue, Option.bind_eq_bind, Option.bind_eq_some_iff, Option.pure_def, Option.some.injEq] at h
    obtain ⟨l, -, rfl⟩ := h
    simp [Expr.methods]
  | ident i =>
    simp only [Full.defaultValue, Option.bind_eq_bind, Option.bind_eq_some_iff, Option.pure_def, Option.some.injEq] at h
    obtain ⟨l, -, rfl⟩ := h
    simp [Expr.methods]

theorem getDefault_methods {w : Ty} {d : Option Ast.DefaultValue} {e : Expr} (h : Full.getDefault w d = some e) : e.methods = [] := by
  cases d with
  | none =>
    cases h
    simp [Full.v, Expr.methods]
  | some d =>
    simp only [Full.getDefault, Option.map_eq_some_iff] at h
    obtain ⟨e', he, rfl⟩ := h
    simp [Full.v, Expr.methods, exprsMethods, defaultValue_methods he]

theorem armsMethods_append (as bs : List (Pat × Expr)) : armsMethods (as ++ bs) = armsMethods as ++ armsMethods bs := by
  induction as with
  | nil => simp [armsMethods]
  | cons a as ih => simp [armsMethods, ih]

theorem armsMethods_mem {as : List (Pat × Expr)} {x : Str × List Ty} (h : x ∈ armsMethods as) : ∃ a ∈ as, x ∈ a.2.methods := by
  induction as with
  | nil => simp [armsMethods] at h
  | cons a as ih =>
    simp only [armsMethods, List.mem_append] at h
    rcases h with h | h
    · exact ⟨a, by simp, h⟩
    · obtain ⟨b, hb, hu⟩ := ih h
      exact ⟨b, by simp [hb], hu⟩

/-- A method that is given no types, or is not the one that asks for traits. -/
def Asks (x : Str × List Ty) : Prop := x.1 = c!"push_slot" ∧ x.2 ≠ []

theorem unionBody_asks {f : Ir.Field} {snake : Str} {q en : QIdent} {vs : List Ir.UnionVariant} {b : Expr}
    (h : Full.unionBody n ns f snake q en vs = some b) : ∀ x ∈ b.methods, ¬ Asks x := by
  simp only [Full.unionBody, Option.bind_eq_bind, Option.bind_eq_some_iff, Option.pure_def, Option.some.injEq] at h
  obtain ⟨u, -, e, -, tag, -, arms, harms, rfl⟩ := h
  intro x hx
  have hN : (Full.v c!"None").methods = [] := by simp [Full.v, Expr.methods]
  simp only [Full.v, Expr.methods, exprsMethods, argTys, List.nil_append, List.append_nil, armsMethods_append, List.mem_append,
    List.mem_singleton] at hx
  rcases hx with rfl | hx | hx
  · simp [Asks]
  · obtain ⟨a, ha, hu⟩ := armsMethods_mem hx
    obtain ⟨y, hy, hax⟩ := mapM_source harms a ha
    split at hax
    · simp only [Full.requiredArm, Option.bind_eq_bind, Option.bind_eq_some_iff, Option.pure_def, Option.some.injEq] at hax
      obtain ⟨w, hw, i, -, rfl⟩ := hax
      simp only [Expr.methods, exprsMethods, getExpr_methods f w hN, missing_methods, argTys, List.append_nil, List.nil_append,
        List.mem_cons, List.not_mem_nil, or_false] at hu
      rcases hu with rfl | rfl <;> simp [Asks]
    · simp only [Full.optionalArm, Option.bind_eq_bind, Option.bind_eq_some_iff, Option.pure_def, Option.some.injEq] at hax
      obtain ⟨w, hw, i, -, rfl⟩ := hax
      simp only [Expr.methods, exprsMethods, getExpr_methods f w hN, argTys, List.append_nil, List.nil_append,
        List.mem_cons, List.not_mem_nil, or_false] at hu
      rcases hu with rfl | rfl <;> simp [Asks]
  · exfalso
    unfold Full.lastArm at hx
    split at hx <;> simp [armsMethods, Expr.methods, exprsMethods, Full.v, missing_methods] at hx

theorem accessor_traits {f : Ir.Field} {a : Fn} (h : Full.accessor n ns f = some a) (sc : Rs.Scope) : FnTraits F sc a := by
  have key : ∀ b : Expr, a.exprs = [b] → (∀ x ∈ b.methods, ¬ Asks x) → FnTraits F sc a := by
    intro b hb hA e he x hx hp t ht
    rw [hb, List.mem_singleton] at he
    subst he
    exact absurd ⟨hp, List.ne_nil_of_mem ht⟩ (hA x hx)
  simp only [Full.accessor, Option.bind_eq_bind, Option.bind_eq_some_iff, Option.pure_def, Option.some.injEq] at h
  obtain ⟨snake, -, ret, hret, w, hw, d, hd, h⟩ := h
  split at h
  · simp only [Option.bind_eq_some_iff, Option.some.injEq] at h
    obtain ⟨b, hb, rfl⟩ := h
    exact key b rfl (unionBody_asks hb)
  · cases h
    refine key _ rfl ?_
    have hg := getExpr_methods (n := n) f w (getDefault_methods hd)
    unfold Full.plainBody
    split <;> simp [Expr.methods, exprsMethods, missing_methods, hg, argTys, Asks]

theorem tableAccess_traits (T : TableTraits F m n ns fs) {accs : List Fn} (h : fs.mapM (Full.accessor n ns) = some accs) :
    ItemTraits F m (Full.tableAccess n accs) := by
  have A := Paths.of T.hygienic m (.inr rfl)
  have hn := T.ownAt _ (.inr rfl)
  refine ⟨⟨by simp [Full.asRef, typeParams], fun _ => ?_⟩, ?_, ?_⟩
  · traits A []
  · rw [implFns_append, implFns_fns]
    intro f hf
    rcases List.mem_append.mp hf with hf | hf
    · obtain ⟨x, -, hx⟩ := mapM_source h f hf
      exact accessor_traits hx _
    · simp only [implFns, List.mem_singleton] at hf
      subst hf
      traits A [Full.getRootFn]
  · refine ⟨?_, m, n, hn _⟩
    rw [implTypes_append, implTypes_fns]
    rfl

theorem argsStruct_traits (args : List Field) : ItemTraits F m (Full.argsStruct n fs args) := by
  simp [ItemTraits, Full.argsStruct, DerivesOk, derives]

theorem builderStruct_traits : ItemTraits F m (Full.builderStruct n) := by
  simp [ItemTraits, Full.builderStruct, DerivesOk, derives]

theorem initsMethods_mem {zs : List (Str × Option Expr)} {u : Str × List Ty} (h : u ∈ initsMethods zs) :
    ∃ z ∈ zs, ∃ e, z.2 = some e ∧ u ∈ e.methods := by
  induction zs with
  | nil => simp [initsMethods] at h
  | cons z zs ih =>
    obtain ⟨x, e⟩ := z
    cases e with
    | none =>
      obtain ⟨z, hz, e, he⟩ := ih (by simpa [initsMethods] using h)
      exact ⟨z, by simp [hz], e, he⟩
    | some e =>
      simp only [initsMethods, List.mem_append] at h
      rcases h with h | h
      · exact ⟨_, List.mem_cons_self, e, rfl, h⟩
      · obtain ⟨z, hz, e, he⟩ := ih h
        exact ⟨z, by simp [hz], e, he⟩

theorem argDefault_methods {f : Ir.Field} {z : Str × Option Expr} (h : Full.argDefault ns f = some z) :
    ∀ e, z.2 = some e → e.methods = [] := by
  simp only [Full.argDefault, Option.bind_eq_bind, Option.bind_eq_some_iff, Option.pure_def, Option.some.injEq] at h
  obtain ⟨t, -, e, he, rfl⟩ := h
  rintro e ⟨⟩
  unfold Full.argDefaultExpr at he
  split at he
  · cases he
    simp [Full.v, Expr.methods]
  · split at he
    · split at he
      · rw [Option.map_eq_some_iff] at he
        obtain ⟨x, -, rfl⟩ := he
        simp [Expr.methods]
      · cases he
    · split at he
      · cases he
      · rw [Option.map_eq_some_iff] at he
        obtain ⟨x, -, rfl⟩ := he
        simp [Expr.methods]
    · cases he
      simp [Expr.methods, exprsMethods]

theorem argsTy_erase (n : Str) (fs : List Ir.Field) (l : Str) : (Full.argsTy n fs l).erase = some (.path [n ++ c!"Args"]) := by
  unfold Full.argsTy
  split <;> simp [Ty.erase, eraseArgs]

theorem argsDefault_traits (T : TableTraits F m n ns fs) {ds : List (Str × Option Expr)} (h : fs.mapM (Full.argDefault ns) = some ds) :
    ItemTraits F m (Full.argsDefault n fs ds) := by
  have A := Paths.of T.hygienic m (.inl rfl)
  have ha := T.args ⟨m, [], none⟩ (.inl rfl) rfl
  have hl : headDef F.prog ⟨m, [], none⟩ (Full.argsTy n fs c!"a") = some (.item m (n ++ c!"Args")) := ha
  have hm : ∀ x ∈ initsMethods ds, False := by
    intro x hx
    obtain ⟨z, hz, e, he, hu⟩ := initsMethods_mem hx
    obtain ⟨f, -, hf⟩ := mapM_source h z hz
    rw [argDefault_methods hf e he] at hu
    cases hu
  have hm' : initsMethods ds = [] := List.eq_nil_iff_forall_not_mem.mpr hm
  refine ⟨⟨by simp, by simp [argsGenerics_types]⟩, ?_, ⟨?_, ?_, rfl, .inl ⟨m, n ++ c!"Args", ?_⟩⟩⟩
  · traits A [hm']
  · rw [argsGenerics_types]
    exact ⟨.path [c!"Default"], _, _, [], c!"default", [], .struct m (n ++ c!"Args"), rfl, argsTy_erase n fs c!"a",
      T.tyArgs none none [], by simp [Rs.traitSpec, A.default], by simp [implTypes]⟩
  · rw [argsGenerics_types]
    traits A []
  · rw [argsGenerics_types]
    exact hl

theorem addMethod_traits (T : TableTraits F m n ns fs) {f : Ir.Field} (hf : f ∈ fs) {a : Fn} (h : Full.addMethod n ns f = some a)
    (s : Option Rs.Def) : FnTraits F ⟨m, [], s⟩ a := by
  have A := Paths.of T.hygienic m (.inl rfl)
  simp only [Full.addMethod, Option.bind_eq_bind, Option.bind_eq_some_iff, Option.pure_def, Option.some.injEq] at h
  obtain ⟨t, ht, b, hb, rfl⟩ := h
  intro e he x hx hp u hu
  simp only [Fn.exprs, List.flatMap_cons, List.flatMap_nil, Stmt.exprs, Option.toList_none, List.append_nil, List.mem_singleton] at he
  subst he
  have hk := T.fields f hf ⟨m, [], s⟩ (.inl rfl) rfl
  have always : (c!"push_slot_always" : Str) ≠ c!"push_slot" := by decide
  unfold Full.addBody at hb
  split at hb
  · rename_i hs
    split at hb
    · rw [Option.map_eq_some_iff] at hb
      obtain ⟨d, hd, rfl⟩ := hb
      simp only [Expr.methods, exprsMethods, Full.v, Full.slotExpr, argTys, defaultValue_methods hd, List.append_nil,
        List.mem_singleton] at hx
      subst hx
      rw [List.mem_singleton.mp hu]
      rw [Full.argTy, if_neg (by cases hty : f.ty <;> simp_all [Ir.Ty.isScalar, Ir.Ty.isUnion])] at ht
      exact scalar_has (A.prim _) ht hk hs (by decide)
    · cases hb
      simp only [Expr.methods, exprsMethods, Full.v, Full.slotExpr, argTys, List.append_nil, List.mem_singleton] at hx
      subst hx
      exact absurd hp always
  · cases hb
    simp only [Expr.methods, exprsMethods, Full.v, Full.slotExpr, argTys, List.append_nil, List.mem_singleton] at hx
    subst hx
    exact absurd hp always

theorem finishFn_traits (sc : Rs.Scope) : FnTraits F sc (Full.finishFn n fs) := by
  intro e he x hx _
  have : x.2 = [] := by
    simp only [Full.finishFn, Fn.exprs, List.flatMap_cons, List.mem_append, List.mem_flatMap, List.mem_map] at he
    rcases he with (he | ⟨s, ⟨f, -, rfl⟩, he⟩) | he
    · simp only [Stmt.exprs, List.mem_singleton] at he
      subst he
      simp only [Expr.methods, exprsMethods, Full.v, argTys, List.append_nil, List.mem_singleton] at hx
      rw [hx]
    · simp only [Full.requiredCheck, Stmt.exprs, List.mem_singleton] at he
      subst he
      simp only [Expr.methods, exprsMethods, Full.v, Full.slotExpr, argTys, List.append_nil, List.mem_singleton] at hx
      rw [hx]
    · simp only [Option.toList_some, List.mem_singleton] at he
      subst he
      simp only [Expr.methods, exprsMethods, Full.v, argTys, List.append_nil, List.nil_append, List.mem_singleton] at hx
      rw [hx]
  simp [this]

theorem builderImpl_traits (T : TableTraits F m n ns fs) {adds : List Fn} (h : fs.mapM (Full.addMethod n ns) = some adds) :
    ItemTraits F m (Full.builderImpl n adds fs) := by
  have A := Paths.of T.hygienic m (.inl rfl)
  refine ⟨⟨by simp, by simp [typeParams]⟩, ?_, ?_, m, _, T.builder ⟨m, [], none⟩ (.inl rfl) rfl⟩
  · rw [implFns_append, implFns_fns]
    intro f hf
    rcases List.mem_append.mp hf with hf | hf
    · obtain ⟨x, hx, he⟩ := mapM_source h f hf
      exact addMethod_traits T hx he _
    · simp only [implFns, List.mem_cons, List.not_mem_nil, or_false] at hf
      rcases hf with rfl | rfl
      · traits A [Full.newFn]
      · exact finishFn_traits _
  · rw [implTypes_append, implTypes_fns]
    rfl

theorem table_traits [FloatText] {gm : Mode} {t : Ir.Table} {ys : List Item}
    (T : TableTraits F m (QIdent.simple t.ident) (QIdent.namespace t.ident) t.fields) (h : Full.table gm t = some ys) :
    ∀ y ∈ ys, ItemTraits F m y := by
  simp only [Full.table, Option.bind_eq_bind, Option.bind_eq_some_iff, Option.pure_def, Option.some.injEq] at h
  obtain ⟨n, hn, _, -, args, ha, dflt, hd, adds, hadd, consts, hc, accs, hacc, rfl⟩ := h
  obtain rfl := Gen.formatIdent_eq hn
  intro y hy
  simp only [List.cons_append, List.nil_append, List.mem_cons, List.mem_append, List.not_mem_nil, or_false] at hy
  rcases hy with rfl | rfl | rfl | rfl | rfl | rfl | rfl | rfl | hy | rfl | rfl
  · exact tableStruct_traits T _
  · exact tableFrom_traits T
  · exact tableInto_traits T
  · exact tableCreate_traits T hc
  · exact tableAccess_traits T hacc
  · exact tableFollow_traits T
  · exact tableFollowBuf_traits T
  · exact argsStruct_traits _
  · unfold Full.defaultItems at hd
    split at hd
    · rw [Option.map_eq_some_iff] at hd
      obtain ⟨ds, hds, rfl⟩ := hd
      rw [List.mem_singleton.mp hy]
      exact argsDefault_traits T hds
    · cases hd; cases hy
  · exact builderStruct_traits
  · exact builderImpl_traits T hadd

end

end Butte.Src
