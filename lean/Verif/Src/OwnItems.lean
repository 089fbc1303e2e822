import Verif.Src.Own
import Verif.Src.TraitsTypes
/-
The generated items keep the rules for ownership.
-/
namespace Butte.Src
open Ir (QIdent)
open Rs (Program Hygienic Lit)

section
variable {F : File} {cur : List Str} {Γ : List Local}

theorem not_place {Γ : List Local} {e : List Str} (he : e ≠ []) (i : Str) (gs : List GArg) :
    Expr.isPlace Γ (.path (e ++ [i]) gs) = false := by
  rcases e with _ | ⟨a, _ | ⟨b, e⟩⟩
  · exact absurd rfl he
  · rfl
  · rfl

theorem binds_path {e : List Str} (he : e ≠ []) (i : Str) : (Pat.path (e ++ [i])).binds = [] := by
  rcases e with _ | ⟨a, _ | ⟨b, e⟩⟩
  · exact absurd rfl he
  · rfl
  · rfl

/-- Expressions that move nothing. -/
theorem Uses.same {σ : List Str} : ∀ {es : List Expr}, (∀ e ∈ es, Use F cur Γ σ e σ) → Uses F cur Γ σ es σ
  | [], _ => .nil
  | _ :: _, h => .cons (h _ (by simp)) (Uses.same fun e he => h e (by simp [he]))

theorem Arms.same {σ : List Str} : ∀ {as : List (Pat × Expr)}, (∀ a ∈ as, Use F cur Γ σ a.2 σ) → Arms F cur Γ σ as σ
  | [], _ => .nil (by simp)
  | _ :: _, h => .cons (h _ (by simp)) (by simp) (Arms.same fun e he => h e (by simp [he]))

theorem Use.one {σ σ₁ : List Str} {f e : Expr} (h1 : Use F cur Γ σ f σ) (h2 : Use F cur Γ σ e σ₁) : Use F cur Γ σ (.call f [e]) σ₁ :=
  .call h1 (.cons h2 .nil)

theorem Use.two {σ σ₁ σ₂ : List Str} {f e e' : Expr} (h1 : Use F cur Γ σ f σ) (h2 : Use F cur Γ σ e σ₁) (h3 : Use F cur Γ σ₁ e' σ₂) :
    Use F cur Γ σ (.call f [e, e']) σ₂ :=
  .call h1 (.cons h2 (.cons h3 .nil))

/-- A variable is used for the last time. -/
theorem Use.last {σ : List Str} {x : Str} {v : Local} (h : localOf Γ x = some v) (hx : x ∉ σ) : Use F cur Γ σ (Full.v x) (x :: σ) :=
  .move (.var h) hx

theorem missing_use {σ : List Str} (s : Str) : Use F cur Γ σ (Full.missing s) σ := .one (.path rfl) .lit

theorem defaultValue_use {σ : List Str} {t : Ty} {d : Ast.DefaultValue} {e : Expr} (h : Full.defaultValue t d = some e) :
    Use F cur Γ σ e σ := by
  cases d with
  | scalar s =>
    simp only [Full.defaultValue, Option.bind_eq_bind, Option.bind_eq_some_iff, Option.pure_def, Option.some.injEq] at h
    obtain ⟨l, -, rfl⟩ := h
    exact .lit
  | ident i =>
    simp only [Full.defaultValue, Option.bind_eq_bind, Option.bind_eq_some_iff, Option.pure_def, Option.some.injEq] at h
    obtain ⟨l, -, rfl⟩ := h
    exact .qpath

theorem getDefault_use {σ : List Str} (hs : localOf Γ c!"Some" = none) (hn : localOf Γ c!"None" = none) {w : Ty}
    {d : Option Ast.DefaultValue} {e : Expr} (h : Full.getDefault w d = some e) : Use F cur Γ σ e σ := by
  cases d with
  | none =>
    cases h
    exact .path (by simp [Expr.isPlace, hn])
  | some d =>
    simp only [Full.getDefault, Option.map_eq_some_iff] at h
    obtain ⟨e', he, rfl⟩ := h
    exact .one (.path (by simp [Expr.isPlace, hs])) (defaultValue_use he)

end

/-! ### Tables -/

/-- What the code of a table relies on, about ownership. -/
structure TableOwn (F : File) (m : List Str) (n : Str) (ns : Option QIdent) (fs : List Ir.Field) (adds accs : List Fn) : Prop where
  traits : TableTraits F m n ns fs
  struct : ∃ doc, F.item m n = some (Full.tableStruct n doc)
  argsStruct : ∃ args, F.item m (n ++ c!"Args") = some (Full.argsStruct n fs args) ∧ ∀ f ∈ fs, ∃ t ∈ args, t.name = f.ident ∧ t.pub = true ∧
    ∃ t', Full.argTy ns f.ty c!"a" = some t' ∧ t.ty = if f.required || f.ty.isScalar then t' else Full.optionTy t'
  builderStruct : F.item m (n ++ c!"Builder") = some (Full.builderStruct n)
  builder : (m, Full.builderImpl n adds fs) ∈ flatItems [] F.items
  access : (m, Full.tableAccess n accs) ∈ flatItems [] F.items
  adds : ∀ f ∈ fs, ∃ a ∈ adds, a.name = Rs.addName f ∧ a.params.head? = some (.refSelf true)
  tags : ∀ f ∈ fs, f.ty.isUnion = true → ∃ a ∈ accs, a.name = Heck.snake f.ident ++ c!"_type" ∧ a.params.head? = some (.refSelf false)
  selfs : ∀ f ∈ fs, f.ident ≠ c!"self"

section
variable {F : File} {m : List Str} {n : Str} {ns : Option QIdent} {fs : List Ir.Field} {adds accs : List Fn}

/-- The type of builders, as it is written in the `impl`. -/
def builderTy (n : Str) : Ty := .path [n ++ c!"Builder"] false [.life c!"a", .life c!"b"]

theorem TableOwn.inBuilder (T : TableOwn F m n ns fs adds accs) {f : Fn} (hf : f ∈ adds ∨ f = Full.newFn n ∨ f = Full.finishFn n fs) :
    Inherent F m (n ++ c!"Builder") [.life c!"a" (some c!"b"), .life c!"b" none] (builderTy n) f := by
  refine ⟨_, _, T.builder, T.traits.builder _ (.inl rfl) rfl, ?_⟩
  rw [implFns_append, implFns_fns]
  simpa [implFns] using hf

theorem TableOwn.inTable (T : TableOwn F m n ns fs adds accs) {f : Fn} (hf : f ∈ accs) :
    Inherent F m n [.ty c!"B"] (Full.ofB n) f := by
  refine ⟨_, _, T.access, T.traits.ownAt _ (.inr rfl) _, ?_⟩
  rw [implFns_append, implFns_fns]
  simp [hf]

theorem tableFrom_own : ItemOwn F m (Full.tableFrom n) := by
  intro f hf
  simp only [implFns, List.mem_singleton] at hf
  subst hf
  exact .value (.struct (.cons (.last rfl (by simp)) .nil))

theorem tableInto_own (T : TableOwn F m n ns fs adds accs) : ItemOwn F m (Full.tableInto n) := by
  obtain ⟨doc, hi⟩ := T.struct
  intro f hf
  simp only [implFns, List.mem_singleton] at hf
  subst hf
  refine .value (.move (.field (f := ⟨[], false, c!"table", Full.tableB⟩) (.var rfl) rfl (T.traits.ownAt [c!"B"] (.inr rfl) _) hi ?_ ?_) ?_)
  · simp
  · exact .inr List.prefix_rfl
  · simp

theorem newTable_own {sc : Rs.Scope} {Γ : List Local} {b l : Local} (hb : localOf Γ c!"buf" = some b) (hl : localOf Γ c!"loc" = some l)
    (ho : localOf Γ c!"Ok" = none) : Block F sc Γ [] [Full.newTable] (some (Full.ok Full.selfTable)) := by
  refine .let (.two (.path rfl) (.last hb (by simp)) (.last hl (by decide))) .unknown (.value (.one (.path ?_) (.struct (.cons (.last rfl ?_) .nil))))
  · simp only [Expr.isPlace, localOf, List.find?] at ho ⊢
    rw [ho]
    decide
  · decide

theorem tableFollow_own : ItemOwn F m (Full.tableFollow n) := by
  intro f hf
  simp only [implFns, List.mem_singleton] at hf
  subst hf
  exact newTable_own rfl rfl rfl

theorem tableFollowBuf_own : ItemOwn F m (Full.tableFollowBuf n) := by
  intro f hf
  simp only [implFns, List.mem_singleton] at hf
  subst hf
  exact newTable_own rfl rfl rfl

/-! Accessors -/

/-- What accessors start with. -/
def selfLocal (m : List Str) (n : Str) : Local := ⟨c!"self", false, .ty ⟨m, [c!"B"], none⟩ (.ref none false (Full.ofB n))⟩

theorem get_use (T : TableOwn F m n ns fs adds accs) {σ : List Str} (hσ : c!"self" ∉ σ) (f : Ir.Field) (w : Ty) {d : Expr}
    (hd : Use F m [selfLocal m n] σ d σ) : Use F m [selfLocal m n] σ (Full.getExpr n f w d) σ := by
  obtain ⟨doc, hi⟩ := T.struct
  have A := Paths.of T.traits.hygienic m (.inr rfl)
  refine .method (.field (f := ⟨[], false, c!"table", Full.tableB⟩) (.var rfl) rfl (T.traits.ownAt [c!"B"] (.inr rfl) _) hi ?_ ?_) hσ rfl
    (.butte (A.butte _ _) (p := .selfRef) (by decide)) .ref (.cons (.path rfl) (.cons hd .nil)) id
  · simp
  · exact .inr List.prefix_rfl

theorem plainBody_use (T : TableOwn F m n ns fs adds accs) (f : Ir.Field) (snake : Str) (w : Ty) {d : Expr}
    (hd : Use F m [selfLocal m n] [] d []) : Use F m [selfLocal m n] [] (Full.plainBody n f snake w d) [] := by
  have hg := get_use T (by simp) f w hd
  unfold Full.plainBody
  split
  · exact .methodOf rfl (.try hg) (.cons (missing_use _) .nil)
  · exact hg

theorem unionBody_use (T : TableOwn F m n ns fs adds accs) {f : Ir.Field} (hf : f ∈ fs) (hu : f.ty.isUnion = true) {snake : Str}
    {q en : QIdent} {vs : List Ir.UnionVariant} {b : Expr} (h : Full.unionBody n ns f snake q en vs = some b) :
    Use F m [selfLocal m n] [] b [] := by
  simp only [Full.unionBody, Option.bind_eq_bind, Option.bind_eq_some_iff, Option.pure_def, Option.some.injEq] at h
  obtain ⟨u, hup, e, hep, tag, htag, arms, harms, rfl⟩ := h
  obtain rfl := Gen.formatIdent_eq htag
  have une := (pathTokens_some hup).2
  have ene := (pathTokens_some hep).2
  obtain ⟨a, ha, hname, hself⟩ := T.tags f hf hu
  have hN : Use F m [selfLocal m n] [] (Full.v c!"None") [] := .path rfl
  have harm : ∀ x ∈ arms, x.1.binds = [] ∧ Use F m [selfLocal m n] [] x.2 [] := by
    intro x hx
    obtain ⟨y, -, hy⟩ := mapM_source harms x hx
    split at hy
    · simp only [Full.requiredArm, Option.bind_eq_bind, Option.bind_eq_some_iff, Option.pure_def, Option.some.injEq] at hy
      obtain ⟨w, -, i, -, rfl⟩ := hy
      exact ⟨binds_path ene i, .one (.path (not_place une i _))
        (.try (.methodOf rfl (.try (get_use T (by simp) f w hN)) (.cons (missing_use _) .nil)))⟩
    · simp only [Full.optionalArm, Option.bind_eq_bind, Option.bind_eq_some_iff, Option.pure_def, Option.some.injEq] at hy
      obtain ⟨w, -, i, -, rfl⟩ := hy
      exact ⟨binds_path ene i, .methodOf rfl (.try (get_use T (by simp) f w hN)) (.cons (.path (not_place une i _)) .nil)⟩
  have hlast : (Full.lastArm f.required e snake).1.binds = [] ∧ Use F m [selfLocal m n] [] (Full.lastArm f.required e snake).2 [] := by
    unfold Full.lastArm
    split
    · exact ⟨binds_path ene _, .ret (.one (.path rfl) (missing_use _))⟩
    · refine ⟨?_, hN⟩
      simp only [Pat.binds, binds_path ene]
      rfl
  have htagu : Use F m [selfLocal m n] [] (.method (Full.v c!"self") (Heck.snake f.ident ++ c!"_type") [] []) [] := by
    refine .method (.var rfl) (by simp) rfl (p' := .ty ⟨m, [c!"B"], none⟩ (Full.ofB n)) (ps := .selfRef) ?_ .ref .nil id
    rw [← hname]
    exact .item (T.traits.ownAt _ (.inr rfl) _) (T.inTable ha) hself (.inr List.prefix_rfl)
  refine .one (.path rfl) (.matchOf rfl (.try htagu) ?_ (Arms.same ?_))
  · intro x hx
    rcases List.mem_append.mp hx with hx | hx
    · exact (harm x hx).1
    · rw [List.mem_singleton.mp hx]
      exact hlast.1
  · intro x hx
    rcases List.mem_append.mp hx with hx | hx
    · exact (harm x hx).2
    · rw [List.mem_singleton.mp hx]
      exact hlast.2

theorem accessor_own (T : TableOwn F m n ns fs adds accs) {f : Ir.Field} (hf : f ∈ fs) {a : Fn} (h : Full.accessor n ns f = some a)
    (d : Option Rs.Def) : FnOwn F ⟨m, [c!"B"], d⟩ (some (Full.ofB n)) a := by
  simp only [Full.accessor, Option.bind_eq_bind, Option.bind_eq_some_iff, Option.pure_def, Option.some.injEq] at h
  obtain ⟨snake, -, ret, hret, w, hw, d, hd, h⟩ := h
  split at h
  · rename_i hty
    simp only [Option.bind_eq_some_iff, Option.some.injEq] at h
    obtain ⟨b, hb, rfl⟩ := h
    exact .value (unionBody_use T hf (by rw [hty]; rfl) hb)
  · cases h
    exact .value (plainBody_use T f snake w (getDefault_use rfl rfl hd))

theorem tableAccess_own (T : TableOwn F m n ns fs adds accs) (h : fs.mapM (Full.accessor n ns) = some accs) :
    ItemOwn F m (Full.tableAccess n accs) := by
  intro f hf
  rw [implFns_append, implFns_fns] at hf
  rcases List.mem_append.mp hf with hf | hf
  · obtain ⟨x, hx, he⟩ := mapM_source h f hf
    exact accessor_own T hx he _
  · simp only [implFns, List.mem_singleton] at hf
    subst hf
    exact .let (.try (.one (.path rfl) (.last rfl (by simp)))) .unknown
      (.value (.one (.path rfl) (.struct (.cons (.last rfl (by decide)) .nil))))

/-! Builders -/

/-- What `add_` methods start with. -/
def builderLocal (m : List Str) (n : Str) : Local := ⟨c!"self", false, .ty ⟨m, [], none⟩ (.ref none true (builderTy n))⟩

theorem fbb_place (T : TableOwn F m n ns fs adds accs) {Γ : List Local} {e : Expr} {x : Str} {p : PlaceTy} {a a' : Access}
    (h : Place F m Γ e x p a) (hd : autoDeref p a = (.ty ⟨m, [], none⟩ (builderTy n), a')) :
    Place F m Γ (.field e c!"fbb") x (.ty ⟨m, [], none⟩ (Full.fbbTy c!"b" c!"a")) a' :=
  .field (f := ⟨[], false, c!"fbb", Full.fbbTy c!"b" c!"a"⟩) h hd (T.traits.builder ⟨m, [], none⟩ (.inl rfl) rfl) T.builderStruct
    (by simp) (.inr List.prefix_rfl)

theorem start_place (T : TableOwn F m n ns fs adds accs) {Γ : List Local} {e : Expr} {x : Str} {p : PlaceTy} {a a' : Access}
    (h : Place F m Γ e x p a) (hd : autoDeref p a = (.ty ⟨m, [], none⟩ (builderTy n), a')) :
    Place F m Γ (.field e c!"start") x (.ty ⟨m, [], none⟩ (Full.wip (.path [c!"butte", c!"TableUnfinishedWIPOffset"] false []))) a' :=
  .field (f := ⟨[], false, c!"start", Full.wip (.path [c!"butte", c!"TableUnfinishedWIPOffset"] false [])⟩) h hd
    (T.traits.builder ⟨m, [], none⟩ (.inl rfl) rfl) T.builderStruct (by simp) (.inr List.prefix_rfl)

theorem addMethod_own (T : TableOwn F m n ns fs adds accs) {f : Ir.Field} (hf : f ∈ fs) {a : Fn} (h : Full.addMethod n ns f = some a)
    (d : Option Rs.Def) : FnOwn F ⟨m, [], d⟩ (some (builderTy n)) a := by
  have A := Paths.of T.traits.hygienic m (.inl rfl)
  simp only [Full.addMethod, Option.bind_eq_bind, Option.bind_eq_some_iff, Option.pure_def, Option.some.injEq] at h
  obtain ⟨t, ht, b, hb, rfl⟩ := h
  have hs := T.selfs f hf
  have hl : localOf [builderLocal m n, ⟨f.ident, false, .ty ⟨m, [], d⟩ t⟩] f.ident = some ⟨f.ident, false, .ty ⟨m, [], d⟩ t⟩ := by
    simp [localOf, builderLocal, Ne.symm hs]
  have key : ∀ g es, (c!"FlatBufferBuilder", g, Pass.selfMut) ∈ butteMethods →
      Uses F m [builderLocal m n, ⟨f.ident, false, .ty ⟨m, [], d⟩ t⟩] [f.ident] es [f.ident] →
      Use F m [builderLocal m n, ⟨f.ident, false, .ty ⟨m, [], d⟩ t⟩] []
        (.method (.field (Full.v c!"self") c!"fbb") g [.ty t] (Full.slotExpr n f :: Full.v f.ident :: es)) [f.ident] := by
    intro g es hg hes
    exact .method (fbb_place T (.var rfl) rfl) (by simp) rfl (.butte (A.butte _ _) hg) (.mut (.inr rfl))
      (.cons (.path rfl) (.cons (.last hl (by simp)) hes)) (by simp [Ne.symm hs])
  have : Use F m [builderLocal m n, ⟨f.ident, false, .ty ⟨m, [], d⟩ t⟩] [] b [f.ident] := by
    unfold Full.addBody at hb
    split at hb
    · split at hb
      · rw [Option.map_eq_some_iff] at hb
        obtain ⟨e, he, rfl⟩ := hb
        exact key _ _ (by decide) (.cons (defaultValue_use he) .nil)
      · cases hb
        exact key _ _ (by decide) .nil
    · cases hb
      exact key _ _ (by decide) .nil
  exact .expr this .none

theorem newFn_own (T : TableOwn F m n ns fs adds accs) (d : Option Rs.Def) : FnOwn F ⟨m, [], d⟩ (some (builderTy n)) (Full.newFn n) := by
  have A := Paths.of T.traits.hygienic m (.inl rfl)
  exact .let (.method (.var rfl) (by simp) rfl (.butte (A.butte _ _) (p := .selfMut) (by decide)) (.mut (.inr rfl)) .nil id) .unknown
    (.value (.struct (.cons (.last rfl (by simp)) (.cons (.last rfl (by decide)) .nil))))

theorem checks_own (T : TableOwn F m n ns fs adds accs) (d : Option Rs.Def) {Γ : List Local} {a : Bool} {v : Option Expr}
    (hs : localOf Γ c!"self" = some ⟨c!"self", a, .ty ⟨m, [], none⟩ (builderTy n)⟩) {b : Bool}
    (ho : localOf Γ c!"o" = some ⟨c!"o", b, .offset⟩) (hv : Block F ⟨m, [], d⟩ Γ [] [] v) :
    ∀ gs : List Ir.Field, Block F ⟨m, [], d⟩ Γ [] (gs.map (Full.requiredCheck n)) v
  | [] => hv
  | f :: gs => by
    have A := Paths.of T.traits.hygienic m (.inl rfl)
    refine .expr (σ₁ := []) (.method (fbb_place T (.var hs) rfl) (by simp) rfl (.butte (A.butte _ _) (p := .selfRef) (by decide)) .ref
      (.cons (.copy (.var ho) (by simp) trivial) (.cons (.path rfl) (.cons .lit .nil))) id) (checks_own T d hs ho hv gs)

theorem finishFn_own (T : TableOwn F m n ns fs adds accs) (d : Option Rs.Def) :
    FnOwn F ⟨m, [], d⟩ (some (builderTy n)) (Full.finishFn n fs) := by
  have A := Paths.of T.traits.hygienic m (.inl rfl)
  have hf := fbb_place T (Γ := startLocals ⟨m, [], d⟩ (some (builderTy n)) [.self]) (.var (x := c!"self") rfl) rfl
  refine .let (σ₁ := []) (.method hf (by simp) rfl (.butte (A.butte _ _) (p := .selfMut) (by decide)) (.mut (.inr rfl))
    (.cons (.copy (start_place T (.var rfl) rfl) (by simp) (wip_copy (A.butte _ _) _ _)) .nil) id)
    (.offset hf rfl (A.butte _ _) (by decide)) (checks_own T d rfl rfl (.value (σ₁ := []) ?_) _)
  exact .one (.path rfl) (.method (.var rfl) (by simp) rfl .offset (.copy trivial) .nil id)

theorem builderImpl_own (T : TableOwn F m n ns fs adds accs) (h : fs.mapM (Full.addMethod n ns) = some adds) :
    ItemOwn F m (Full.builderImpl n adds fs) := by
  intro f hf
  rw [implFns_append, implFns_fns] at hf
  rcases List.mem_append.mp hf with hf | hf
  · obtain ⟨x, hx, he⟩ := mapM_source h f hf
    exact addMethod_own T hx he _
  · simp only [implFns, List.mem_cons, List.not_mem_nil, or_false] at hf
    rcases hf with rfl | rfl
    · exact newFn_own T _
    · exact finishFn_own T _

/-! Creation -/

/-- What there is in `create` once there is a builder. -/
def createLocals (m : List Str) (n : Str) (fs : List Ir.Field) (d : Option Rs.Def) : List Local :=
  [⟨c!"builder", true, .ty ⟨m, [], none⟩ (builderTy n)⟩, ⟨c!"fbb", false, .ty ⟨m, [], d⟩ (Full.fbbTy c!"mut_bldr" c!"bldr")⟩,
    ⟨c!"args", false, .ty ⟨m, [], d⟩ (.ref (some c!"args") false (Full.argsTy n fs c!"args"))⟩]

theorem arg_use (T : TableOwn F m n ns fs adds accs) {d : Option Rs.Def} {f : Ir.Field} (hf : f ∈ fs) {σ : List Str}
    (hσ : c!"args" ∉ σ) : Use F m (createLocals m n fs d) σ (.field (Full.v c!"args") f.ident) σ := by
  have A := Paths.of T.traits.hygienic m (.inl rfl)
  obtain ⟨args, hi, ha⟩ := T.argsStruct
  obtain ⟨t, ht, hname, hpub, t', ht', hty⟩ := ha f hf
  rw [← hname]
  refine .copy (.field (.var rfl) rfl (T.traits.args ⟨m, [], d⟩ (.inl rfl) rfl) hi ht (.inl hpub)) hσ ?_
  rw [argsGenerics_types]
  have hc : Has F c!"Copy" [] ⟨m, [], none⟩ t' :=
    argTy_copy (A.butte _ _) (A.prim _) ht' (T.traits.fields f hf ⟨m, [], none⟩ (.inl rfl) rfl)
  show Has F c!"Copy" [] ⟨m, [], none⟩ t.ty
  rw [hty]
  split
  · exact hc
  · exact .option (A.option _) (by decide) (by simpa [argTys] using hc)

theorem add_receives (T : TableOwn F m n ns fs adds accs) {f : Ir.Field} (hf : f ∈ fs) :
    Receives F m (.ty ⟨m, [], none⟩ (builderTy n)) (Rs.addName f) .selfMut := by
  obtain ⟨a, ha, hname, hself⟩ := T.adds f hf
  rw [← hname]
  exact .item (T.traits.builder ⟨m, [], none⟩ (.inl rfl) rfl) (T.inBuilder (.inl ha)) hself (.inr List.prefix_rfl)

theorem addCalls_own (T : TableOwn F m n ns fs adds accs) (d : Option Rs.Def) : ∀ {gs : List Ir.Field}, (∀ f ∈ gs, f ∈ fs) →
    ∀ {σ : List Str}, (∀ x ∈ σ, x = c!"fbb") → Block F ⟨m, [], d⟩ (createLocals m n fs d) σ (gs.map Full.addCall)
      (some (.method (Full.v c!"builder") c!"finish" [] []))
  | [], _, σ, hσ => by
    have hb : c!"builder" ∉ σ := fun h => absurd (hσ _ h) (by decide)
    refine .value (.method (.var rfl) hb rfl (f := (Full.finishFn n fs).name) (.item (T.traits.builder ⟨m, [], none⟩ (.inl rfl) rfl)
      (T.inBuilder (.inr (.inr rfl))) rfl (.inr List.prefix_rfl)) (.move rfl) .nil id)
  | f :: gs, hg, σ, hσ => by
    have hb : c!"builder" ∉ σ := fun h => absurd (hσ _ h) (by decide)
    have ha : c!"args" ∉ σ := fun h => absurd (hσ _ h) (by decide)
    have hx : c!"x" ∉ σ := fun h => absurd (hσ _ h) (by decide)
    have hf := hg f (by simp)
    have ih := fun {σ} => addCalls_own T d (gs := gs) (fun g h => hg g (by simp [h])) (σ := σ)
    rw [List.map_cons]
    unfold Full.addCall
    dsimp only
    split
    · exact .expr (.method (.var rfl) hb rfl (add_receives T hf) (.mut (.inl rfl)) (.cons (arg_use T hf ha) .nil) id) (ih hσ)
    · have hfx : σ.filter (· ≠ c!"x") = σ := List.filter_eq_self.mpr fun y hy => by
        rw [hσ y hy]
        decide
      refine .ifLet (σ₁ := σ) (σ₂ := c!"x" :: σ) (arg_use T hf ha) rfl ?_ (ih ?_)
      · rw [hfx]
        refine .method (.var rfl) hb rfl (add_receives T hf) (.mut (.inl rfl)) (.cons (.last rfl hx) .nil) ?_
        intro h
        simp only [List.mem_cons] at h
        rcases h with h | h
        · exact absurd h (by decide)
        · exact h
      · intro y hy
        simp only [List.mem_append, List.mem_filter, List.mem_cons, decide_eq_true_eq] at hy
        rcases hy with hy | ⟨hy | hy, hne⟩
        · exact hσ y hy
        · exact absurd hy hne
        · exact hσ y hy

theorem createFn_own (T : TableOwn F m n ns fs adds accs) (d : Option Rs.Def) {s : Option Ty} : FnOwn F ⟨m, [], d⟩ s (Full.createFn n fs) := by
  refine .let (.one (.path rfl) (.last rfl (by simp))) (Gives.call (q := [n ++ c!"Builder"]) (f := Full.newFn n)
    (T.traits.builder ⟨m, [], d⟩ (.inl rfl) rfl) (T.inBuilder (.inr (.inl rfl))) rfl) (addCalls_own T d (fun _ h => h) ?_)
  intro x hx
  simpa using (List.mem_filter.mp hx).1

theorem tableCreate_own (T : TableOwn F m n ns fs adds accs) {gm : Mode} {cs : List ImplItem}
    (h : (List.zipIdx fs).mapM (fun x => Full.slotConst gm x.2 x.1) = some cs) : ItemOwn F m (Full.tableCreate n cs fs) := by
  intro f hf
  rw [implFns_append, (slotConsts_only h).1] at hf
  simp only [implFns, List.nil_append, List.mem_singleton] at hf
  subst hf
  exact createFn_own T _

theorem argsDefault_own {ds : List (Str × Option Expr)} (h : fs.mapM (Full.argDefault ns) = some ds) :
    ItemOwn F m (Full.argsDefault n fs ds) := by
  intro f hf
  simp only [implFns, List.mem_singleton] at hf
  subst hf
  refine .value (.struct (σ₁ := []) (Uses.same ?_))
  intro e he
  obtain ⟨z, hz, rfl⟩ := List.mem_map.mp he
  clear he
  obtain ⟨f, -, hf⟩ := mapM_source h z hz
  simp only [Full.argDefault, Option.bind_eq_bind, Option.bind_eq_some_iff, Option.pure_def, Option.some.injEq] at hf
  obtain ⟨t, -, e, he, rfl⟩ := hf
  simp only [Option.getD_some]
  unfold Full.argDefaultExpr at he
  split at he
  · cases he
    exact .path rfl
  · split at he
    · split at he
      · rw [Option.map_eq_some_iff] at he
        obtain ⟨x, -, rfl⟩ := he
        exact .qpath
      · cases he
    · split at he
      · cases he
      · rw [Option.map_eq_some_iff] at he
        obtain ⟨x, -, rfl⟩ := he
        exact .lit
    · cases he
      exact .call .qpath .nil

theorem table_own [FloatText] {gm : Mode} {t : Ir.Table} {ys : List Item} (h : Full.table gm t = some ys)
    (T : ∀ adds accs, t.fields.mapM (Full.addMethod (QIdent.simple t.ident) (QIdent.namespace t.ident)) = some adds →
      t.fields.mapM (Full.accessor (QIdent.simple t.ident) (QIdent.namespace t.ident)) = some accs →
      TableOwn F m (QIdent.simple t.ident) (QIdent.namespace t.ident) t.fields adds accs) :
    ∀ y ∈ ys, ItemOwn F m y := by
  simp only [Full.table, Option.bind_eq_bind, Option.bind_eq_some_iff, Option.pure_def, Option.some.injEq] at h
  obtain ⟨n, hn, _, -, args, ha, dflt, hd, adds, hadd, consts, hc, accs, hacc, rfl⟩ := h
  obtain rfl := Gen.formatIdent_eq hn
  have T := T adds accs hadd hacc
  intro y hy
  simp only [List.cons_append, List.nil_append, List.mem_cons, List.mem_append, List.not_mem_nil, or_false] at hy
  rcases hy with rfl | rfl | rfl | rfl | rfl | rfl | rfl | rfl | hy | rfl | rfl
  · trivial
  · exact tableFrom_own
  · exact tableInto_own T
  · exact tableCreate_own T hc
  · exact tableAccess_own T hacc
  · exact tableFollow_own
  · exact tableFollowBuf_own
  · trivial
  · unfold Full.defaultItems at hd
    split at hd
    · rw [Option.map_eq_some_iff] at hd
      obtain ⟨ds, hds, rfl⟩ := hd
      rw [List.mem_singleton.mp hy]
      exact argsDefault_own hds
    · cases hd; cases hy
  · trivial
  · exact builderImpl_own T hadd

/-! ### Enums and unions -/

theorem enumDefault_own (vs : List (Str × Lit × Ast.Comment)) : ItemOwn F m (Full.enumDefault n vs) := by
  intro f hf
  simp only [implFns, List.mem_singleton] at hf
  subst hf
  cases vs with
  | nil => exact .none
  | cons v vs => exact .value (.path rfl)

theorem enumFollow_own (base : Str) : ItemOwn F m (Full.enumFollow n base) := by
  intro f hf
  simp only [implFns, List.mem_singleton] at hf
  subst hf
  exact .let (.try (.two (.path rfl) (.last rfl (by simp)) (.last rfl (by decide)))) .unknown
    (.value (.one .qpath (.last rfl (by decide))))

theorem enumTryFrom_own (base : Str) (vs : List (Str × Lit × Ast.Comment)) : ItemOwn F m (Full.enumTryFrom n base vs) := by
  intro f hf
  simp only [implFns, List.mem_singleton] at hf
  subst hf
  refine .value (.match (.var rfl) (by simp) ?_ (Arms.same ?_)) <;>
  · intro a ha
    simp only [List.mem_append, List.mem_map, List.mem_singleton] at ha
    rcases ha with ⟨x, -, rfl⟩ | rfl
    · first | rfl | exact .one (.path rfl) .qpath
    · first | rfl | exact .one (.path rfl) (.path rfl)

theorem enumInto_own (base : Str) (vs : List (Str × Lit × Ast.Comment)) : ItemOwn F m (Full.enumInto n base vs) := by
  intro f hf
  simp only [implFns, List.mem_singleton] at hf
  subst hf
  refine .value (.match (.var rfl) (by simp) ?_ (Arms.same ?_)) <;>
  · intro a ha
    obtain ⟨x, -, rfl⟩ := List.mem_map.mp ha
    first | rfl | exact .lit

theorem enumPush_own (hc : Has F c!"Copy" [] ⟨m, [], none⟩ (Full.word n)) (base : Str) : ItemOwn F m (Full.enumPush n base) := by
  intro f hf
  simp only [implFns, List.mem_singleton] at hf
  subst hf
  have hp : Place F m (startLocals ⟨m, [], headDef F.prog ⟨m, [], none⟩ (Full.word n)⟩ (some (Full.word n)) [.refSelf false,
      .named c!"dst" (.ref none true (.slice (Full.word c!"u8"))), .named c!"_rest" (Full.bytes none)]) (Full.v c!"self") c!"self"
      (.ty ⟨m, [], none⟩ (.ref none false (Full.word n))) (.owned false) :=
    .var (v := ⟨c!"self", false, .ty ⟨m, [], none⟩ (.ref none false (Full.word n))⟩) rfl
  refine .let (σ₁ := []) (.one .qpath (.copy (.deref hp) (by simp) hc)) .unknown
    (.expr (.two (.path rfl) (.last rfl (by simp)) (.last rfl (by decide))) .none)

theorem enumName_own (vs : List (Str × Lit × Ast.Comment)) : ItemOwn F m (Full.enumName n vs) := by
  refine .value (.match (.var rfl) (by simp) ?_ (Arms.same ?_)) <;>
  · intro a ha
    obtain ⟨x, -, rfl⟩ := List.mem_map.mp ha
    first | rfl | exact .lit

theorem enum_own {e : Ir.Enum} {ys : List Item} (hc : Has F c!"Copy" [] ⟨m, [], none⟩ (Full.word (QIdent.simple e.ident)))
    (h : Full.enum e = some ys) : ∀ y ∈ ys, ItemOwn F m y := by
  simp only [Full.enum, Option.bind_eq_bind, Option.bind_eq_some_iff, Option.pure_def, Option.some.injEq] at h
  obtain ⟨n, hn, vs, -, rfl⟩ := h
  obtain rfl := Gen.formatIdent_eq hn
  intro y hy
  simp only [List.mem_cons, List.not_mem_nil, or_false] at hy
  rcases hy with rfl | rfl | rfl | rfl | rfl | rfl | rfl
  · trivial
  · exact enumDefault_own _
  · exact enumFollow_own _
  · exact enumTryFrom_own _ _
  · exact enumInto_own _ _
  · exact enumPush_own hc _
  · exact enumName_own _

theorem union_own {u : Ir.Union} {ys : List Item} (h : Full.union u = some ys) : ∀ y ∈ ys, ItemOwn F m y := by
  simp only [Full.union, Option.bind_eq_bind, Option.bind_eq_some_iff, Option.pure_def, Option.some.injEq] at h
  obtain ⟨n, hn, e, he, vs, hvs, rfl⟩ := h
  have ene := (pathTokens_some he).2
  intro y hy
  simp only [List.mem_cons, List.not_mem_nil, or_false] at hy
  rcases hy with rfl | rfl
  · trivial
  · intro f hf
    simp only [implFns, List.mem_singleton] at hf
    subst hf
    refine .value (.match (.var rfl) (by simp) ?_ (Arms.same ?_))
    · intro a ha
      obtain ⟨x, -, rfl⟩ := List.mem_map.mp ha
      rfl
    · intro a ha
      obtain ⟨x, -, rfl⟩ := List.mem_map.mp ha
      exact .path (not_place ene _ _)

end

end Butte.Src
