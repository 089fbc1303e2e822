import Verif.Src.LifetimesOk
/-
The generated items keep the rules for lifetimes: one item at a time.
-/
namespace Butte.Src
open Ir (QIdent Node Ident itemsOf)
open Rs (Program Hygienic modOf pathTokens fwdPath wipPath)

/-- How many lifetimes follow the paths that are always the same. -/
structure Fixed (F : File) (m gs : List Str) : Prop where
  butte : ∀ s b, F.arity ⟨m, gs, s⟩ [c!"butte", b] = if b ∈ [c!"Vector", c!"FlatBufferBuilder", c!"Follow"] then 1 else 0
  std : ∀ s b, F.arity ⟨m, gs, s⟩ [c!"std", c!"convert", b] = 0
  str : ∀ s, F.arity ⟨m, gs, s⟩ [c!"str"] = 0
  usize : ∀ s, F.arity ⟨m, gs, s⟩ [c!"usize"] = 0
  u8 : ∀ s, F.arity ⟨m, gs, s⟩ [c!"u8"] = 0
  option : ∀ s, F.arity ⟨m, gs, s⟩ [c!"Option"] = 0
  result : ∀ s, F.arity ⟨m, gs, s⟩ [c!"Result"] = 0
  default : ∀ s, F.arity ⟨m, gs, s⟩ [c!"Default"] = 0
  from_ : ∀ s, F.arity ⟨m, gs, s⟩ [c!"From"] = 0

theorem Fixed.of {F : File} (h : Hygienic F.prog) (m : List Str) {gs : List Str} (hg : gs = [] ∨ gs = [c!"B"]) : Fixed F m gs where
  butte s := arity_butte h (sc := ⟨m, gs, s⟩) hg
  std s := arity_std h (sc := ⟨m, gs, s⟩) hg
  str s := arity_word h (sc := ⟨m, gs, s⟩) hg (by decide)
  usize s := arity_word h (sc := ⟨m, gs, s⟩) hg (by decide)
  u8 s := arity_word h (sc := ⟨m, gs, s⟩) hg (by decide)
  option s := arity_word h (sc := ⟨m, gs, s⟩) hg (by decide)
  result s := arity_word h (sc := ⟨m, gs, s⟩) hg (by decide)
  default s := arity_word h (sc := ⟨m, gs, s⟩) hg (by decide)
  from_ s := arity_word h (sc := ⟨m, gs, s⟩) hg (by decide)

theorem arity_B (F : File) (m : List Str) (s : Option Rs.Def) : F.arity ⟨m, [c!"B"], s⟩ [c!"B"] = 0 := arity_param rfl

open Lean.Parser.Tactic in
/-- Items, types and the rules spelled out. -/
macro "lives" A:term:max "[" hs:simpLemma,* "]" : tactic => `(tactic|
  simp [ItemLives, DeclLives, ImplItemLives, FnLives, GenericsLives, lifeNames, lifeBounds, typeParams, Param.ty?, forall_and, forall_eq',
    Ty.lives, argLives, Expr.tys, exprsTys, armsTys, initsTys, Stmt.tys, Pat.tys, argTys, Full.v, Full.selfTable, Full.ok, Full.newTable,
    Full.tableB, Full.ofB, Full.ofBytes, Full.bytes, Full.word, Full.wip, Full.errorTy, Full.resultTy, Full.optionTy, Full.fbbTy,
    Full.selfTy, Full.followTy, Full.innerResult, Full.tryFromTy, Full.asRef, wipPath,
    tyLives_path, tyLives_ref, tyLives_slice, argsLives_nil, argsLives_life, argsLives_ty, lifeArgs, LifeIn, lifeOf, arity_self,
    Fixed.butte $A, Fixed.std $A, Fixed.str $A, Fixed.usize $A, Fixed.u8 $A, Fixed.option $A, Fixed.result $A, Fixed.default $A,
    Fixed.from_ $A, $hs,*])

theorem mapM_source {α β : Type} {f : α → Option β} : ∀ {l : List α} {r : List β}, l.mapM f = some r → ∀ y ∈ r, ∃ x ∈ l, f x = some y
  | [], _, h, y, hy => by
    simp only [List.mapM_nil, Option.pure_def, Option.some.injEq] at h
    subst h
    cases hy
  | a :: l, r, h, y, hy => by
    simp only [List.mapM_cons, Option.bind_eq_bind, Option.bind_eq_some_iff, Option.pure_def, Option.some.injEq] at h
    obtain ⟨b, hb, bs, hbs, rfl⟩ := h
    rcases List.mem_cons.mp hy with rfl | hy
    · exact ⟨a, by simp, hb⟩
    · obtain ⟨x, hx, he⟩ := mapM_source hbs y hy
      exact ⟨x, by simp [hx], he⟩

/-! ### Tables -/

/-- What the code of a table relies on, about lifetimes. -/
structure TableLives (F : File) (m : List Str) (n : Str) (ns : Option QIdent) (fs : List Ir.Field) : Prop where
  hygienic : Hygienic F.prog
  own : ∀ sc : Rs.Scope, sc.Ok → sc.module = m → F.arity sc [n] = 0
  args : ∀ sc : Rs.Scope, sc.Ok → sc.module = m → F.arity sc [n ++ c!"Args"] = if Full.hasLife fs then 1 else 0
  builder : ∀ sc : Rs.Scope, sc.Ok → sc.module = m → F.arity sc [n ++ c!"Builder"] = 2
  fields : ∀ f ∈ fs, ∀ sc : Rs.Scope, sc.Ok → sc.module = m → ArTy F sc ns f.ty ∧
    ∀ q e vs, f.ty = .union q e vs → ∀ v ∈ vs, ArTy F sc ns v.ty

section
variable {F : File} {m : List Str} {n : Str} {ns : Option QIdent} {fs : List Ir.Field}

theorem TableLives.ownAt (T : TableLives F m n ns fs) (gs : List Str) (hg : gs = [] ∨ gs = [c!"B"]) (s : Option Rs.Def) :
    F.arity ⟨m, gs, s⟩ [n] = 0 := T.own _ hg rfl

theorem tableStruct_lives (T : TableLives F m n ns fs) (doc : Ast.Comment) : ItemLives F m (Full.tableStruct n doc) := by
  have A := Fixed.of T.hygienic m (.inr rfl)
  lives A [arity_B, Full.tableStruct]

theorem tableFrom_lives (T : TableLives F m n ns fs) : ItemLives F m (Full.tableFrom n) := by
  have A := Fixed.of T.hygienic m (.inr rfl)
  have hn := T.ownAt _ (.inr rfl)
  lives A [arity_B, Full.tableFrom, hn]

theorem tableInto_lives (T : TableLives F m n ns fs) : ItemLives F m (Full.tableInto n) := by
  have A := Fixed.of T.hygienic m (.inr rfl)
  have hn := T.ownAt _ (.inr rfl)
  lives A [arity_B, Full.tableInto, hn]

theorem addCall_tys (f : Ir.Field) : (Full.addCall f).tys = [] := by
  unfold Full.addCall
  split <;> simp [Stmt.tys, Expr.tys, exprsTys, Full.v, argTys, Pat.tys]

theorem slotConst_lives (T : TableLives F m n ns fs) {gm : Mode} {xs : List (Ir.Field × Nat)} {cs : List ImplItem}
    (h : xs.mapM (fun x => Full.slotConst gm x.2 x.1) = some cs) (s : Option Rs.Def) (ls : List Str) (head : List (Option Str)) :
    ∀ c ∈ cs, ImplItemLives F ⟨m, [], s⟩ ls head c := by
  intro c hc
  obtain ⟨x, -, hx⟩ := mapM_source h c hc
  simp only [Full.slotConst, Option.bind_eq_bind, Option.bind_eq_some_iff, Option.pure_def, Option.some.injEq] at hx
  obtain ⟨_, -, rfl⟩ := hx
  have A := Fixed.of T.hygienic m (.inl rfl)
  lives A []

theorem argsTy_lives (T : TableLives F m n ns fs) (l : Str) {ls : List Str} {el : Bool} (s : Option Rs.Def)
    (hl : LifeIn ls el (lifeOf l)) : TyLives F ⟨m, [], s⟩ ls el (Full.argsTy n fs l) := by
  rw [Full.argsTy, tyLives_path, T.args _ (.inl rfl) rfl]
  split <;> simp [lifeArgs, argsLives_life, argsLives_nil, hl]

theorem tableCreate_lives (T : TableLives F m n ns fs) {gm : Mode} {cs : List ImplItem}
    (h : (List.zipIdx fs).mapM (fun x => Full.slotConst gm x.2 x.1) = some cs) : ItemLives F m (Full.tableCreate n cs fs) := by
  have A := Fixed.of T.hygienic m (.inl rfl)
  have hn := T.ownAt _ (.inl rfl)
  have hc := slotConst_lives T h
  refine ⟨by lives A [], by lives A [hn], by simp, ?_⟩
  intro i hi
  rcases List.mem_append.mp hi with hi | hi
  · exact hc _ _ _ i hi
  · rw [List.mem_singleton.mp hi]
    have ha := fun s => argsTy_lives T c!"args" (ls := [c!"a", c!"bldr", c!"args", c!"mut_bldr"]) (el := true) s (by simp [LifeIn, lifeOf])
    have ht : ∀ fs : List Ir.Field, List.flatMap Stmt.tys (fs.map Full.addCall) = [] := by
      intro fs
      rw [List.flatMap_eq_nil_iff]
      intro x hx
      obtain ⟨f, -, rfl⟩ := List.mem_map.mp hx
      exact addCall_tys f
    lives A [Full.createFn, ha, hn, ht]

theorem slot_tys (n : Str) (f : Ir.Field) : (Full.slotExpr n f).tys = [] := by simp [Full.slotExpr, Expr.tys, argTys]

theorem defaultValue_tys {t : Ty} {d : Ast.DefaultValue} {e : Expr} (h : Full.defaultValue t d = some e) : ∀ u ∈ e.tys, u = t := by
  cases d with
  | scalar s =>
    simp only [Full.defaultValue, Option.bind_eq_bind, Option.bind_eq_some_iff, Option.pure_def, Option.some.injEq] at h
    obtain ⟨l, -, rfl⟩ := h
    simp [Expr.tys]
  | ident i =>
    simp only [Full.defaultValue, Option.bind_eq_bind, Option.bind_eq_some_iff, Option.pure_def, Option.some.injEq] at h
    obtain ⟨l, -, rfl⟩ := h
    simp [Expr.tys]

theorem getDefault_tys {w : Ty} {d : Option Ast.DefaultValue} {e : Expr} (h : Full.getDefault w d = some e) : ∀ u ∈ e.tys, u = w := by
  cases d with
  | none =>
    cases h
    simp [Full.v, Expr.tys, argTys]
  | some d =>
    simp only [Full.getDefault, Option.map_eq_some_iff] at h
    obtain ⟨e', he, rfl⟩ := h
    simpa [Full.v, Expr.tys, argTys, exprsTys] using defaultValue_tys he

theorem missing_tys (s : Str) : (Full.missing s).tys = [] := by simp [Full.missing, Expr.tys, argTys, exprsTys]

theorem get_tys {n : Str} {f : Ir.Field} {w : Ty} {d : Expr} (hd : ∀ u ∈ d.tys, u = w) : ∀ u ∈ (Full.getExpr n f w d).tys, u = w := by
  intro u hu
  simp only [Full.getExpr, Full.v, Expr.tys, argTys, exprsTys, slot_tys, List.nil_append, List.append_nil, List.mem_append,
    List.mem_singleton] at hu
  rcases hu with h | h
  · exact h
  · exact hd u h

theorem armsTys_append (as bs : List (Pat × Expr)) : armsTys (as ++ bs) = armsTys as ++ armsTys bs := by
  induction as with
  | nil => simp [armsTys]
  | cons a as ih => simp [armsTys, ih]

theorem armsTys_mem {as : List (Pat × Expr)} {u : Ty} (h : u ∈ armsTys as) : ∃ a ∈ as, u ∈ a.1.tys ++ a.2.tys := by
  induction as with
  | nil => simp [armsTys] at h
  | cons a as ih =>
    simp only [armsTys, List.mem_append] at h
    rcases h with h | h
    · exact ⟨a, by simp, by simpa using h⟩
    · obtain ⟨b, hb, hu⟩ := ih h
      exact ⟨b, by simp [hb], hu⟩

theorem unionBody_tys (T : TableLives F m n ns fs) {f : Ir.Field} (hf : f ∈ fs) {snake : Str} {q en : QIdent}
    {vs : List Ir.UnionVariant} (hty : f.ty = .union q en vs) {b : Expr} (h : Full.unionBody n ns f snake q en vs = some b)
    {sc : Rs.Scope} (hsc : sc.Ok) (hm : sc.module = m) (ls : List Str) : ∀ u ∈ b.tys, TyLives F sc ls true u := by
  simp only [Full.unionBody, Option.bind_eq_bind, Option.bind_eq_some_iff, Option.pure_def, Option.some.injEq] at h
  obtain ⟨u, -, e, -, tag, -, arms, harms, rfl⟩ := h
  intro t ht
  simp only [Full.v, Expr.tys, argTys, exprsTys, List.nil_append, List.append_nil, armsTys_append, List.mem_append] at ht
  rcases ht with ht | ht
  · obtain ⟨a, ha, hu⟩ := armsTys_mem ht
    obtain ⟨x, hx, hax⟩ := mapM_source harms a ha
    have hg : ∀ w, ∀ u ∈ (Full.getExpr n f w (Full.v c!"None")).tys, u = w :=
      fun w => get_tys (by simp [Full.v, Expr.tys, argTys])
    have hA := (T.fields f hf sc hsc hm).2 q en vs hty x hx
    have key : ∃ w, Full.typeToken ns x.ty c!"_" (some fwdPath) true = some w ∧ t = w := by
      split at hax
      · simp only [Full.requiredArm, Option.bind_eq_bind, Option.bind_eq_some_iff, Option.pure_def, Option.some.injEq] at hax
        obtain ⟨w, hw, i, -, rfl⟩ := hax
        refine ⟨w, hw, hg w t ?_⟩
        simpa [Pat.tys, Expr.tys, argTys, exprsTys, missing_tys] using hu
      · simp only [Full.optionalArm, Option.bind_eq_bind, Option.bind_eq_some_iff, Option.pure_def, Option.some.injEq] at hax
        obtain ⟨w, hw, i, -, rfl⟩ := hax
        refine ⟨w, hw, hg w t ?_⟩
        simpa [Pat.tys, Expr.tys, argTys, exprsTys, missing_tys] using hu
    obtain ⟨w, hw, rfl⟩ := key
    exact typeToken_lives T.hygienic hsc hw hA (by simp [LifeIn, lifeOf]) wrapOk_fwd
  · exfalso
    unfold Full.lastArm at ht
    split at ht <;> simp [armsTys, Pat.tys, Full.v, Expr.tys, argTys, exprsTys, missing_tys] at ht

theorem accessorFn_lives {as : List Attr} {f : Ir.Field} {snake : Str} {ret : Ty} {b : Expr} {s : Option Rs.Def} {gs : List Str}
    (A : Fixed F m gs) (hr : TyLives F ⟨m, gs, s⟩ [] true ret) (hb : ∀ u ∈ b.tys, TyLives F ⟨m, gs, s⟩ [] true u) :
    FnLives F ⟨m, gs, s⟩ [] (Full.accessorFn as f snake ret b) := by
  refine ⟨by simp [Full.accessorFn, GenericsLives, lifeNames, lifeBounds], by simp [Full.accessorFn, Param.ty?], ?_, ?_⟩
  · rintro t ⟨⟩
    refine ⟨?_, fun _ => .inl ⟨false, by simp [Full.accessorFn]⟩⟩
    show TyLives F _ [] true _
    split <;> lives A [hr]
  · simpa [Full.accessorFn, lifeNames] using hb

theorem accessor_lives (T : TableLives F m n ns fs) {f : Ir.Field} (hf : f ∈ fs) {a : Fn} (h : Full.accessor n ns f = some a)
    (s : Option Rs.Def) : FnLives F ⟨m, [c!"B"], s⟩ [] a := by
  have A := Fixed.of T.hygienic m (.inr rfl)
  have hsc : (⟨m, [c!"B"], s⟩ : Rs.Scope).Ok := .inr rfl
  simp only [Full.accessor, Option.bind_eq_bind, Option.bind_eq_some_iff, Option.pure_def, Option.some.injEq] at h
  obtain ⟨snake, -, ret, hret, w, hw, d, hd, h⟩ := h
  have hA := (T.fields f hf _ hsc rfl).1
  have hr := typeToken_lives (ls := []) (el := true) T.hygienic hsc hret hA (by simp [LifeIn, lifeOf]) wrapOk_fwd
  have hw' := typeToken_lives (ls := []) (el := true) T.hygienic hsc hw hA (by simp [LifeIn, lifeOf]) wrapOk_fwd
  split at h
  · rename_i q en vs hty
    simp only [Option.bind_eq_some_iff, Option.some.injEq] at h
    obtain ⟨b, hb, rfl⟩ := h
    exact accessorFn_lives A hr (unionBody_tys T hf hty hb hsc rfl [])
  · cases h
    refine accessorFn_lives A hr ?_
    have hg := get_tys (n := n) (f := f) (getDefault_tys hd)
    intro u hu
    have : u = w := by
      unfold Full.plainBody at hu
      split at hu
      · exact hg u (by simpa [Expr.tys, argTys, exprsTys, missing_tys] using hu)
      · exact hg u hu
    rw [this]
    exact hw'

theorem tableAccess_lives (T : TableLives F m n ns fs) {accs : List Fn} (h : fs.mapM (Full.accessor n ns) = some accs) :
    ItemLives F m (Full.tableAccess n accs) := by
  have A := Fixed.of T.hygienic m (.inr rfl)
  have hn := T.ownAt _ (.inr rfl)
  refine ⟨by lives A [], by lives A [hn, arity_B], by lives A [arity_B], ?_⟩
  intro i hi
  rcases List.mem_append.mp hi with hi | hi
  · obtain ⟨a, ha, rfl⟩ := List.mem_map.mp hi
    obtain ⟨f, hf, he⟩ := mapM_source h a ha
    exact accessor_lives T hf he _
  · rw [List.mem_singleton.mp hi]
    lives A [Full.getRootFn, arity_B]

theorem tableFollow_lives (T : TableLives F m n ns fs) : ItemLives F m (Full.tableFollow n) := by
  have A := Fixed.of T.hygienic m (.inl rfl)
  have hn := T.ownAt _ (.inl rfl)
  lives A [Full.tableFollow, hn]

theorem tableFollowBuf_lives (T : TableLives F m n ns fs) : ItemLives F m (Full.tableFollowBuf n) := by
  have A := Fixed.of T.hygienic m (.inr rfl)
  have hn := T.ownAt _ (.inr rfl)
  lives A [Full.tableFollowBuf, hn, arity_B]

theorem argTy_lives (T : TableLives F m n ns fs) {f : Ir.Field} (hf : f ∈ fs) {l : Str} {t : Ty} (h : Full.argTy ns f.ty l = some t)
    {ls : List Str} {el : Bool} (hl : LifeIn ls el (lifeOf l)) (s : Option Rs.Def) : TyLives F ⟨m, [], s⟩ ls el t := by
  have A := Fixed.of T.hygienic m (.inl rfl)
  unfold Full.argTy at h
  split at h
  · cases h
    lives A []
  · exact typeToken_lives T.hygienic (.inl rfl) h (T.fields f hf _ (.inl rfl) rfl).1 hl wrapOk_wip

/-- The types of the arguments: a lifetime is there if it is declared. -/
theorem argTy_plain {f : Ir.Field} {l : Str} {t : Ty} (h : Full.argTy ns f.ty l = some t) (hs : (f.ty.isScalar || f.ty.isUnion) = true) :
    t.lives = [] := by
  unfold Full.argTy at h
  split at h
  · cases h
    simp [Full.wip, Ty.lives, argLives]
  · cases hty : f.ty <;> rw [hty] at h hs <;> simp_all [Ir.Ty.isScalar, Ir.Ty.isUnion]
    · cases h
      simp [Full.word, Ty.lives, argLives]
    all_goals
      simp only [Full.typeToken, Option.bind_eq_bind, Option.bind_eq_some_iff, Option.pure_def, Option.some.injEq] at h
      obtain ⟨p, -, rfl⟩ := h
      simp [Ty.lives, argLives]

theorem argField_lives [FloatText] (T : TableLives F m n ns fs) {f : Ir.Field} (hf : f ∈ fs) {z : Field} (h : Full.argField ns f = some z) :
    TyLives F ⟨m, [], none⟩ (lifeNames (Full.argsGenerics fs)) false z.ty := by
  have A := Fixed.of T.hygienic m (.inl rfl)
  simp only [Full.argField, Option.bind_eq_bind, Option.bind_eq_some_iff, Option.pure_def, Option.some.injEq] at h
  obtain ⟨t, ht, doc, -, rfl⟩ := h
  have : TyLives F ⟨m, [], none⟩ (lifeNames (Full.argsGenerics fs)) false t := by
    cases hs : f.ty.isScalar || f.ty.isUnion with
    | true =>
      have := argTy_plain ht hs
      have h2 := (argTy_lives T hf ht (ls := [c!"a"]) (el := true) (by simp [LifeIn, lifeOf]) none).2
      exact ⟨by simp [this], h2⟩
    | false =>
      refine argTy_lives T hf ht ?_ none
      have : Full.hasLife fs = true := by
        simp only [Full.hasLife, List.any_eq_true]
        exact ⟨f, hf, by simp [hs]⟩
      simp [Full.argsGenerics, this, lifeNames, LifeIn, lifeOf]
  show TyLives F _ _ _ (if f.required || f.ty.isScalar then t else Full.optionTy t)
  split
  · exact this
  · lives A [this]

theorem argField_uses [FloatText] {f : Ir.Field} {z : Field} (h : Full.argField ns f = some z)
    (hs : (f.ty.isScalar || f.ty.isUnion) = false) : some c!"a" ∈ z.ty.lives := by
  simp only [Full.argField, Option.bind_eq_bind, Option.bind_eq_some_iff, Option.pure_def, Option.some.injEq] at h
  obtain ⟨t, ht, doc, -, rfl⟩ := h
  rw [Bool.or_eq_false_iff] at hs
  have : lifeOf c!"a" ∈ t.lives := by
    rw [Full.argTy, if_neg (by simp [hs.2])] at ht
    refine typeToken_uses ht ?_
    cases hty : f.ty <;> simp_all [Ir.Ty.isScalar, Ir.Ty.isUnion, Borrows]
  show _ ∈ Ty.lives (if f.required || f.ty.isScalar then t else Full.optionTy t)
  split
  · exact this
  · simpa [Full.optionTy, Ty.lives, argLives] using (show some c!"a" ∈ t.lives from this)

theorem argsGenerics_lives (fs : List Ir.Field) : GenericsLives [] (Full.argsGenerics fs) := by
  unfold Full.argsGenerics
  split <;> simp [GenericsLives, lifeNames, lifeBounds]

theorem argsStruct_lives [FloatText] (T : TableLives F m n ns fs) {args : List Field} (h : fs.mapM (Full.argField ns) = some args) :
    ItemLives F m (Full.argsStruct n fs args) := by
  refine ⟨argsGenerics_lives fs, ?_, ?_⟩
  · intro t ht
    obtain ⟨z, hz, rfl⟩ := List.mem_map.mp ht
    obtain ⟨f, hf, he⟩ := mapM_source h z hz
    rw [argsGenerics_types]
    exact argField_lives T hf he
  · intro l hl
    have : Full.hasLife fs = true ∧ l = c!"a" := by
      unfold Full.argsGenerics at hl
      split at hl
      · exact ⟨by assumption, by simpa [lifeNames] using hl⟩
      · simp [lifeNames] at hl
    obtain ⟨hh, rfl⟩ := this
    simp only [Full.hasLife, List.any_eq_true, Bool.not_eq_true'] at hh
    obtain ⟨f, hf, hs⟩ := hh
    obtain ⟨z, hz, he⟩ := mapM_image h f hf
    exact ⟨_, List.mem_map_of_mem hz, argField_uses he hs⟩

theorem argDefault_tys {f : Ir.Field} {z : Str × Option Expr} (h : Full.argDefault ns f = some z) :
    ∃ t, Full.typeToken ns f.ty c!"_" none false = some t ∧ ∃ e, z.2 = some e ∧ ∀ u ∈ e.tys, u = t := by
  simp only [Full.argDefault, Option.bind_eq_bind, Option.bind_eq_some_iff, Option.pure_def, Option.some.injEq] at h
  obtain ⟨t, ht, e, he, rfl⟩ := h
  refine ⟨t, ht, e, rfl, ?_⟩
  unfold Full.argDefaultExpr at he
  split at he
  · cases he
    simp [Full.v, Expr.tys, argTys]
  · split at he
    · split at he
      · rw [Option.map_eq_some_iff] at he
        obtain ⟨x, -, rfl⟩ := he
        simp [Expr.tys]
      · cases he
    · split at he
      · cases he
      · rw [Option.map_eq_some_iff] at he
        obtain ⟨x, -, rfl⟩ := he
        simp [Expr.tys]
    · cases he
      simp [Expr.tys, exprsTys]

theorem initsTys_mem {zs : List (Str × Option Expr)} {u : Ty} (h : u ∈ initsTys zs) : ∃ z ∈ zs, ∃ e, z.2 = some e ∧ u ∈ e.tys := by
  induction zs with
  | nil => simp [initsTys] at h
  | cons z zs ih =>
    obtain ⟨x, e⟩ := z
    cases e with
    | none =>
      obtain ⟨z, hz, e, he⟩ := ih (by simpa [initsTys] using h)
      exact ⟨z, by simp [hz], e, he⟩
    | some e =>
      simp only [initsTys, List.mem_append] at h
      rcases h with h | h
      · exact ⟨_, List.mem_cons_self, e, rfl, h⟩
      · obtain ⟨z, hz, e, he⟩ := ih h
        exact ⟨z, by simp [hz], e, he⟩

theorem argsDefault_lives (T : TableLives F m n ns fs) {ds : List (Str × Option Expr)} (h : fs.mapM (Full.argDefault ns) = some ds) :
    ItemLives F m (Full.argsDefault n fs ds) := by
  have A := Fixed.of T.hygienic m (.inl rfl)
  have hl : LifeIn (lifeNames (Full.argsGenerics fs)) true (lifeOf c!"a") ∨ Full.hasLife fs = false := by
    cases hh : Full.hasLife fs with
    | false => exact .inr rfl
    | true => exact .inl (by simp [Full.argsGenerics, hh, lifeNames, LifeIn, lifeOf])
  refine ⟨argsGenerics_lives fs, ?_, by simp, ?_⟩
  · rw [argsGenerics_types]
    intro t ht
    simp only [Option.toList_some, List.mem_cons, List.not_mem_nil, or_false] at ht
    rcases ht with rfl | rfl
    · rcases hl with hl | hl
      · exact argsTy_lives T _ _ hl
      · rw [Full.argsTy, tyLives_path, T.args _ (.inl rfl) rfl]
        simp [hl, lifeArgs, argsLives_nil]
    · lives A []
  · intro i hi
    rw [List.mem_singleton.mp hi, argsGenerics_types]
    have hg : (lifeNames (Full.argsGenerics fs)).Nodup := by
      unfold Full.argsGenerics
      split <;> simp [lifeNames]
    refine ⟨⟨by simpa [lifeNames] using hg, by simp [lifeNames], by simp [lifeBounds]⟩, by simp, ?_, ?_⟩
    · lives A []
    · intro u hu
      simp only [List.flatMap_nil, Option.toList_some, List.flatMap_cons, Expr.tys, List.append_nil, List.nil_append] at hu
      obtain ⟨z, hz, e, he, hu⟩ := initsTys_mem hu
      obtain ⟨f, hf, hfz⟩ := mapM_source h z hz
      obtain ⟨t, ht, e', he', hue⟩ := argDefault_tys hfz
      rw [he] at he'
      cases he'
      rw [hue u hu]
      exact typeToken_lives T.hygienic (.inl rfl) ht (T.fields f hf _ (.inl rfl) rfl).1 (by simp [LifeIn, lifeOf]) wrapOk_none

theorem builderStruct_lives (T : TableLives F m n ns fs) : ItemLives F m (Full.builderStruct n) := by
  have A := Fixed.of T.hygienic m (.inl rfl)
  lives A [Full.builderStruct]

theorem addBody_tys {f : Ir.Field} {t : Ty} {b : Expr} (h : Full.addBody n f t = some b) : ∀ u ∈ b.tys, u = t := by
  unfold Full.addBody at h
  simp only at h
  split at h
  · split at h
    · rw [Option.map_eq_some_iff] at h
      obtain ⟨e, he, rfl⟩ := h
      have := defaultValue_tys he
      simpa [Full.v, Expr.tys, argTys, exprsTys, slot_tys] using this
    · cases h
      simp [Full.v, Expr.tys, argTys, exprsTys, slot_tys]
  · cases h
    simp [Full.v, Expr.tys, argTys, exprsTys, slot_tys]

theorem addMethod_lives (T : TableLives F m n ns fs) {f : Ir.Field} (hf : f ∈ fs) {a : Fn} (h : Full.addMethod n ns f = some a)
    (s : Option Rs.Def) : FnLives F ⟨m, [], s⟩ [c!"a", c!"b"] a := by
  simp only [Full.addMethod, Option.bind_eq_bind, Option.bind_eq_some_iff, Option.pure_def, Option.some.injEq] at h
  obtain ⟨t, ht, b, hb, rfl⟩ := h
  have hl := argTy_lives T hf ht (ls := [c!"a", c!"b"]) (el := true) (by simp [LifeIn, lifeOf]) s
  refine ⟨by simp [GenericsLives, lifeNames, lifeBounds], ?_, by simp, ?_⟩
  · simpa [Param.ty?, lifeNames] using hl
  · intro u hu
    rw [addBody_tys hb u (by simpa [Stmt.tys] using hu)]
    simpa [lifeNames] using hl

theorem builderImpl_lives (T : TableLives F m n ns fs) {adds : List Fn} (h : fs.mapM (Full.addMethod n ns) = some adds) :
    ItemLives F m (Full.builderImpl n adds fs) := by
  have A := Fixed.of T.hygienic m (.inl rfl)
  have hn := T.ownAt _ (.inl rfl)
  have hb := fun s => T.builder ⟨m, [], s⟩ (.inl rfl) rfl
  have hr : List.flatMap Stmt.tys ((fs.filter (·.required)).map (Full.requiredCheck n)) = [] := by
    rw [List.flatMap_eq_nil_iff]
    intro x hx
    obtain ⟨f, -, rfl⟩ := List.mem_map.mp hx
    simp [Full.requiredCheck, Stmt.tys, Expr.tys, Full.v, exprsTys, argTys, slot_tys]
  refine ⟨by lives A [], by lives A [hb], by simp, ?_⟩
  intro i hi
  rcases List.mem_append.mp hi with hi | hi
  · obtain ⟨a, ha, rfl⟩ := List.mem_map.mp hi
    obtain ⟨f, hf, he⟩ := mapM_source h a ha
    exact addMethod_lives T hf he _
  · simp only [List.mem_cons, List.not_mem_nil, or_false] at hi
    rcases hi with rfl | rfl
    · lives A [Full.newFn, hn, hb]
    · lives A [Full.finishFn, hn, hr]

theorem table_lives [FloatText] {gm : Mode} {t : Ir.Table} {ys : List Item}
    (T : TableLives F m (QIdent.simple t.ident) (QIdent.namespace t.ident) t.fields) (h : Full.table gm t = some ys) :
    ∀ y ∈ ys, ItemLives F m y := by
  simp only [Full.table, Option.bind_eq_bind, Option.bind_eq_some_iff, Option.pure_def, Option.some.injEq] at h
  obtain ⟨n, hn, _, -, args, ha, dflt, hd, adds, hadds, consts, hc, accs, hacc, rfl⟩ := h
  obtain rfl := Gen.formatIdent_eq hn
  intro y hy
  simp only [List.cons_append, List.nil_append, List.mem_cons, List.mem_append, List.not_mem_nil, or_false] at hy
  rcases hy with rfl | rfl | rfl | rfl | rfl | rfl | rfl | rfl | hy | rfl | rfl
  · exact tableStruct_lives T _
  · exact tableFrom_lives T
  · exact tableInto_lives T
  · exact tableCreate_lives T hc
  · exact tableAccess_lives T hacc
  · exact tableFollow_lives T
  · exact tableFollowBuf_lives T
  · exact argsStruct_lives T ha
  · unfold Full.defaultItems at hd
    split at hd
    · rw [Option.map_eq_some_iff] at hd
      obtain ⟨ds, hds, rfl⟩ := hd
      rw [List.mem_singleton.mp hy]
      exact argsDefault_lives T hds
    · cases hd; cases hy
  · exact builderStruct_lives T
  · exact builderImpl_lives T hadds

end

/-! ### Enums and unions -/

section
variable {F : File} {m : List Str} {n : Str}

theorem enum_lives {e : Ir.Enum} {ys : List Item} (hh : Hygienic F.prog)
    (hn : ∀ s, F.arity ⟨m, [], s⟩ [QIdent.simple e.ident] = 0) (h : Full.enum e = some ys) : ∀ y ∈ ys, ItemLives F m y := by
  have A := Fixed.of hh m (.inl rfl)
  simp only [Full.enum, Option.bind_eq_bind, Option.bind_eq_some_iff, Option.pure_def, Option.some.injEq] at h
  obtain ⟨n, hn', vs, hvs, rfl⟩ := h
  obtain rfl := Gen.formatIdent_eq hn'
  have hb : ∀ s, F.arity ⟨m, [], s⟩ [Rs.baseName e.base] = 0 := fun s => arity_prim hh (.inl rfl) _
  generalize Rs.baseName e.base = base at hb
  generalize QIdent.simple e.ident = n at hn
  intro y hy
  simp only [List.mem_cons, List.not_mem_nil, or_false] at hy
  have ht : ∀ {f : Str × Rs.Lit × Ast.Comment → Pat × Expr}, (∀ x, ∀ u ∈ (f x).1.tys ++ (f x).2.tys, u = Full.word n) →
      ∀ u ∈ armsTys (vs.map f), u = Full.word n := by
    intro f hf u hu
    obtain ⟨a, ha, hu⟩ := armsTys_mem hu
    obtain ⟨x, -, rfl⟩ := List.mem_map.mp ha
    exact hf x u hu
  have hw : ∀ s ls, TyLives F ⟨m, [], s⟩ ls true (Full.word n) := fun s ls => by lives A [hn]
  rcases hy with rfl | rfl | rfl | rfl | rfl | rfl | rfl
  · refine ⟨by simp [GenericsLives, lifeNames, lifeBounds], ?_, by simp [lifeNames]⟩
    intro t ht
    obtain ⟨v, hv, ht⟩ := List.mem_flatMap.mp ht
    obtain ⟨x, -, rfl⟩ := List.mem_map.mp hv
    simp [Payload.tys] at ht
  · cases vs <;> lives A [Full.enumDefault, Full.enumDefaultValue, hn]
  · lives A [Full.enumFollow, hn, hb]
  · have := @ht (fun x => (Pat.lit x.2.1, Full.ok (.qpath (Full.word n) none x.1)))
      (by simp [Pat.tys, Full.ok, Full.v, Expr.tys, exprsTys, argTys])
    refine ⟨by lives A [], by lives A [hn, hb], by simp, ?_⟩
    intro i hi
    simp only [List.mem_cons, List.not_mem_nil, or_false] at hi
    rcases hi with rfl | rfl
    · lives A []
    · refine ⟨by lives A [], by lives A [hb], by lives A [], ?_⟩
      intro u hu
      have : u = Full.word n := this u (by simpa [Full.v, Expr.tys, argTys, exprsTys, armsTys_append, armsTys, Pat.tys] using hu)
      rw [this]
      exact hw _ _
  · have := @ht (fun x => (Pat.qpath (Full.word n) x.1, .lit x.2.1)) (by simp [Pat.tys, Expr.tys])
    refine ⟨by lives A [], by lives A [hn, hb], by simp, ?_⟩
    intro i hi
    rw [List.mem_singleton.mp hi]
    refine ⟨by lives A [], by lives A [hn], by lives A [hb], ?_⟩
    intro u hu
    rw [this u (by simpa [Full.v, Expr.tys, argTys] using hu)]
    exact hw _ _
  · lives A [Full.enumPush, hn, hb]
  · have : armsTys (vs.map fun x => (Pat.path [n, x.1], Expr.lit (.str x.1))) = [] := by
      rw [List.eq_nil_iff_forall_not_mem]
      intro u hu
      obtain ⟨a, ha, hu⟩ := armsTys_mem hu
      obtain ⟨x, -, rfl⟩ := List.mem_map.mp ha
      simp [Pat.tys, Expr.tys] at hu
    lives A [Full.enumName, hn, this]

theorem union_lives {u : Ir.Union} {ys : List Item} (hh : Hygienic F.prog) (hn : ∀ s, F.arity ⟨m, [], s⟩ [QIdent.simple u.ident] = 1)
    (he : ∀ s, F.arity ⟨m, [], s⟩ (QIdent.relative u.enumIdent (QIdent.namespace u.ident)) = 0)
    (hv : ∀ v ∈ u.variants, ∀ s, ArTy F ⟨m, [], s⟩ (QIdent.namespace u.ident) v.ty) (hb : ∃ v ∈ u.variants, Borrows v.ty = true)
    (h : Full.union u = some ys) : ∀ y ∈ ys, ItemLives F m y := by
  have A := Fixed.of hh m (.inl rfl)
  simp only [Full.union, Option.bind_eq_bind, Option.bind_eq_some_iff, Option.pure_def, Option.some.injEq] at h
  obtain ⟨n, hn', e, he', vs, hvs, rfl⟩ := h
  obtain rfl := Gen.formatIdent_eq hn'
  obtain rfl := pathTokens_eq he'
  intro y hy
  simp only [List.mem_cons, List.not_mem_nil, or_false] at hy
  rcases hy with rfl | rfl
  · refine ⟨by lives A [], ?_, ?_⟩
    · intro t ht
      obtain ⟨w, hw, ht⟩ := List.mem_flatMap.mp ht
      obtain ⟨v, hvm, hx⟩ := mapM_source hvs w hw
      simp only [Full.unionVariant, Option.bind_eq_bind, Option.bind_eq_some_iff, Option.pure_def, Option.some.injEq] at hx
      obtain ⟨i, -, t', ht', rfl⟩ := hx
      simp only [Payload.tys, List.mem_singleton] at ht
      subst ht
      exact typeToken_lives hh (.inl rfl) ht' (hv v hvm _) (by simp [lifeNames, LifeIn, lifeOf]) wrapOk_none
    · obtain ⟨v, hvm, hb⟩ := hb
      obtain ⟨w, hw, hx⟩ := mapM_image hvs v hvm
      simp only [Full.unionVariant, Option.bind_eq_bind, Option.bind_eq_some_iff, Option.pure_def, Option.some.injEq] at hx
      obtain ⟨i, -, t', ht', rfl⟩ := hx
      intro l hl
      rw [show l = c!"a" by simpa [lifeNames] using hl]
      exact ⟨t', List.mem_flatMap.mpr ⟨_, hw, by simp [Payload.tys]⟩, typeToken_uses ht' hb⟩
  · have : armsTys (u.variants.map fun x => (Pat.rest [QIdent.simple u.ident, x.ident],
        Expr.path (QIdent.relative u.enumIdent (QIdent.namespace u.ident) ++ [x.ident]) [])) = [] := by
      rw [List.eq_nil_iff_forall_not_mem]
      intro u hu
      obtain ⟨a, ha, hu⟩ := armsTys_mem hu
      obtain ⟨x, -, rfl⟩ := List.mem_map.mp ha
      simp [Pat.tys, Expr.tys, argTys] at hu
    lives A [Full.unionImpl, hn, he, this]

end

end Butte.Src
