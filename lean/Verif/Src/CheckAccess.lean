import Verif.Src.CheckCreate
/-
The code of tables keeps the type rules: accessors.
-/
namespace Butte.Src.Check
open Ir (QIdent All₂)
open Rs (Program Hygienic modOf pathTokens fwdPath wipPath Scope)

/-- What the accessor of a union relies on. -/
structure UnionCk (F : File) (m : List Str) (ns : Option QIdent) (fs : List Ir.Field) (f : Ir.Field) (q en : QIdent) (us : List Ir.UnionVariant) : Prop where
  enum : ∀ sc : Scope, sc.Ok → sc.module = m → OkPath F sc ns en (0, 0)
  members : ∀ u ∈ us, Good F u.ty ∧ (Gen.followTy u.ty).isSome ∧ ∀ sc : Scope, sc.Ok → sc.module = m → OkTy F sc ns u.ty
  tag : ∃ g ∈ fs, Heck.snake g.ident = Heck.snake f.ident ++ c!"_type" ∧ g.required = f.required ∧
    ∃ vs b, g.ty = .enum en vs b ∧ vs.map (·.ident) = c!"None" :: us.map (·.ident)

section
variable {F : File} {k : TyEnv} {m : List Str} {n : Str} {ns : Option QIdent} {fs : List Ir.Field} {args : List Field} {adds accs : List Fn}
  {consts : List ImplItem}

/-- Where accessors are. -/
abbrev accEnv (F : File) (m : List Str) (n : Str) : TyEnv :=
  bodyEnv F m [.ty c!"B"] [] [.param c!"B"] (Full.ofB n) (tblTy m n (.param c!"B")) []

/-- The type of the result of an accessor. -/
def lret (f : Ir.Field) (r : Region) : LTy := .result (if f.required then lty f.ty r else .option (lty f.ty r)) .error

theorem OkPath.ne_nil {sc : Scope} {q : QIdent} {x : Nat × Nat} (h : OkPath F sc ns q x) : QIdent.relative q ns ≠ [] := by
  intro e
  have := h.2.1
  rw [e] at this
  simp [Rs.resolve] at this

namespace TableCk

theorem accessor_sig (T : TableCk F m n ns fs args adds accs consts) {f : Ir.Field} (hf : f ∈ fs) {a : Fn} (h : Full.accessor n ns f = some a)
    {k : TyEnv} {t : LTy} (hk : k.self = some (tblTy m n t)) (h1 : k.sc.module = m) (h2 : k.sc.generics = [c!"B"]) {r : Region} {el : Nat → Region → Prop} (hr : el 0 r) :
    Sig F k a el [.ref r false (tblTy m n t)] (lret f r) := by
  have A : Sees F k.sc := by
    show Paths F.prog k.sc.module k.sc.generics
    rw [h1, h2]
    exact T.paths (.inr rfl)
  simp only [Full.accessor, Option.bind_eq_bind, Option.bind_eq_some_iff, Option.pure_def, Option.some.injEq] at h
  obtain ⟨snake, hs, ret, hret, w, hw, d, hd, h⟩ := h
  have key : ∀ attrs body, Sig F k (Full.accessorFn attrs f snake ret body) el [.ref r false (tblTy m n t)] (lret f r) := by
    intro attrs body
    refine ⟨.refSelf hk hr .nil, ?_⟩
    have hsr : selfRegion (Full.accessorFn attrs f snake ret body) [.ref r false (tblTy m n t)] r := ⟨_, _, _, _, rfl, rfl⟩
    have := typeToken_means (k := { k with elide := selfRegion (Full.accessorFn attrs f snake ret body) [.ref r false (tblTy m n t)] }) A (l := c!"_") (r := r)
      hsr (T.okTy f hf _ (.inr h2) h1) (.inr rfl) hret
    refine resultTy_means (k := { k with elide := selfRegion (Full.accessorFn attrs f snake ret body) [.ref r false (tblTy m n t)] }) A ?_
    split
    · exact this
    · exact option_means (k := { k with elide := selfRegion (Full.accessorFn attrs f snake ret body) [.ref r false (tblTy m n t)] }) A this
  split at h
  · simp only [Option.bind_eq_some_iff, Option.some.injEq] at h
    obtain ⟨b, hb, rfl⟩ := h
    exact key _ _
  · cases h
    exact key _ _

/-- An accessor can be called. -/
theorem accessorInherent (T : TableCk F m n ns fs args adds accs consts) {out : Region → Region → Prop} {ps : List Str} {t : LTy} (ht : AsBytes ps t)
    {g : Ir.Field} (hg : g ∈ fs) {r : Region} : ∃ a : Fn, a.name = Heck.snake g.ident ∧ (∃ qs, a.params = .refSelf false :: qs) ∧
      InherentFn F out ps (tblTy m n t) a [.ref r false (tblTy m n t)] (lret g r) := by
  obtain ⟨a, ha, hag⟩ := mapM_image T.accFns g hg
  obtain ⟨h1, h2⟩ := accessor_shape hag
  have hp : ∃ qs, a.params = .refSelf false :: qs := by
    cases hp : a.params with
    | nil => rw [hp] at h2; cases h2
    | cons p qs => rw [hp] at h2; cases h2; exact ⟨qs, rfl⟩
  have A := T.paths (gs := [c!"B"]) (.inr rfl)
  refine ⟨a, h1, hp, .mk (rs := []) (ts := [t]) (fr := []) T.accessAt (List.mem_append_left _ (List.mem_map_of_mem ha)) (T.ofB rfl rfl rfl) (noBounds rfl) ?_
    (noBounds ?_) (T.accessor_sig hg hag rfl rfl rfl trivial)⟩
  · intro b hb
    simp only [Full.asRef, List.mem_singleton] at hb
    subst hb
    exact ⟨⟨A.std _ _, A.u8 _⟩, t, rfl, ht⟩
  · have : a.generics = [] := by
      simp only [Full.accessor, Option.bind_eq_bind, Option.bind_eq_some_iff, Option.pure_def, Option.some.injEq] at hag
      obtain ⟨snake, hs, ret, hret, w, hw, d, hd, h⟩ := hag
      split at h
      · simp only [Option.bind_eq_some_iff, Option.some.injEq] at h
        obtain ⟨b, hb, rfl⟩ := h
        rfl
      · cases h
        rfl
    rw [this]
    rfl

/-- `self.table.get::<W>(N::VT_X, d)` -/
theorem get_typed (T : TableCk F m n ns fs args adds accs consts) {X : Cx} {Γ : Locals} (h1 : X.env.sc.module = m) (h2 : X.env.sc.generics = [c!"B"])
    (h3 : ∀ r, X.out r r) (h4 : ∀ r, X.env.elide r) {b : LTy} (hb : AsBytes X.asBytes b) {r : Region} (hr : r ≠ .temp) (hs : find Γ c!"self" = some (.ref r false (tblTy m n b)))
    {f : Ir.Field} (hf : f ∈ fs) {ty : Ir.Ty} (hg : Good F ty) (hfo : (Gen.followTy ty).isSome) (ho : OkTy F X.env.sc ns ty) {w : Ty}
    (hw : Full.typeToken ns ty c!"_" (some fwdPath) true = some w) {d : Expr} (hd : Typed F X Γ d (.option (lty ty r))) :
    Typed F X Γ (Full.getExpr n f w d) (.result (.option (lty ty r)) .error) := by
  have A : Sees F X.env.sc := by
    show Paths F.prog X.env.sc.module X.env.sc.generics
    rw [h1, h2]
    exact T.paths (.inr rfl)
  refine .rtMethod (l := r) (.field (.var hs) (.shared (.refl _ _)) (T.fields b) rfl) (.refl _ _) (.one (typeToken_wrap (l := c!"_") (r := r) A (h4 r) ho rfl hw))
    (.get hb (good_follows (h3 r) hg hfo) fun s hs => by rw [lwrap_regions _ ty r s hs]; exact h3 r) (h3 r) (fun e => absurd e hr)
    (.cons (T.slotTyped h1 (.inr h2) hf) (.cons hd .nil))

theorem missing_typed {X : Cx} {Γ : Locals} (A : Sees F X.env.sc) (s : Str) : Typed F X Γ (Full.missing s) .error :=
  .fieldMissing (p := [c!"butte", c!"Error"]) (A.butte _ _) (.lit rfl)

/-- The body of an accessor. -/
theorem body_typed (T : TableCk F m n ns fs args adds accs consts) {X : Cx} {Γ : Locals} (h1 : X.env.sc.module = m) (h2 : X.env.sc.generics = [c!"B"])
    (h3 : ∀ r, X.out r r) (h4 : ∀ r, X.env.elide r) {b : LTy} (hb : AsBytes X.asBytes b) {r : Region} (hr : r ≠ .temp)
    (hΓ : Γ = [(c!"self", .ref r false (tblTy m n b))]) {f : Ir.Field} (hf : f ∈ fs) (hret : X.ret = lret f r)
    (hu : ∀ q en us, f.ty = .union q en us → UnionCk F m ns fs f q en us) {a : Fn} (h : Full.accessor n ns f = some a) :
    ∃ body, a.body = [] ∧ a.value = some body ∧ a.params = [.refSelf false] ∧ Typed F X Γ body (lret f r) := by
  have A : Sees F X.env.sc := by
    show Paths F.prog X.env.sc.module X.env.sc.generics
    rw [h1, h2]
    exact T.paths (.inr rfl)
  subst hΓ
  simp only [Full.accessor, Option.bind_eq_bind, Option.bind_eq_some_iff, Option.pure_def, Option.some.injEq] at h
  obtain ⟨snake, hs, ret, hre, w, hw, d, hd, h⟩ := h
  obtain ⟨kd, hk⟩ := T.kinds f hf
  have G := T.good f hf
  have ok := T.okTy f hf X.env.sc (.inr h2) h1
  split at h
  · rename_i q en us hty
    simp only [Option.bind_eq_some_iff, Option.some.injEq] at h
    obtain ⟨body, hbody, rfl⟩ := h
    refine ⟨body, rfl, rfl, rfl, ?_⟩
    have U := hu q en us hty
    rw [hty] at G ok
    obtain ⟨vs, G⟩ := G
    simp only [Full.unionBody, Option.bind_eq_bind, Option.bind_eq_some_iff, Option.pure_def, Option.some.injEq] at hbody
    obtain ⟨u, hu', e, he, tag, htag, arms, harms, rfl⟩ := hbody
    obtain rfl := pathTokens_eq hu'
    obtain rfl := pathTokens_eq he
    obtain rfl := Gen.formatIdent_eq htag
    have hen := U.enum X.env.sc (.inr h2) h1
    obtain ⟨g, hg, g1, g2, vs', b', g3, g4⟩ := U.tag
    have G' := T.good g hg
    rw [g3] at G'
    obtain ⟨ls, E, hls⟩ := G'
    have unit : ∀ i ∈ c!"None" :: us.map (·.ident), UnitVariant F (defOf en) i (.app (defOf en) [] []) := by
      intro i hi
      rw [← g4, ← hls] at hi
      obtain ⟨x, hx, rfl⟩ := List.mem_map.mp hi
      exact E.unit hx
    obtain ⟨ag, a1, ⟨qs, a2⟩, a3⟩ := T.accessorInherent (out := X.out) (ps := X.asBytes) hb hg (r := r)
    have hcall : Typed F X [(c!"self", .ref r false (tblTy m n b))] (.try (.method (Full.v c!"self") (Heck.snake f.ident ++ c!"_type") [] []))
        (if f.required then .app (defOf en) [] [] else .option (.app (defOf en) [] [])) := by
      rw [← g1, ← a1]
      refine .try (u := .error) ?_ hret
      have := Typed.methodRef (F := F) (X := X) (Γ := [(c!"self", .ref r false (tblTy m n b))]) (e := Full.v c!"self") (.var rfl) (.shared (.refl _ _)) a2 a3 (h3 r) (fun e => absurd e hr) .nil
      rw [lret, g2, g3] at this
      exact this
    have hmem : ∀ x ∈ us, ∀ w, Full.typeToken ns x.ty c!"_" (some fwdPath) true = some w →
        Typed F X [(c!"self", .ref r false (tblTy m n b))] (.try (Full.getExpr n f w (Full.v c!"None"))) (.option (lty x.ty r)) := by
      intro x hx w hw
      obtain ⟨m1, m2, m3⟩ := U.members x hx
      exact .try (T.get_typed h1 h2 h3 h4 hb hr rfl hf m1 m2 (m3 _ (.inr h2) h1) hw (.none rfl)) hret
    have hms : ∀ s, Typed F X [(c!"self", .ref r false (tblTy m n b))] (Full.missing s) .error := missing_typed A
    rw [lret] at hret ⊢
    refine .ok rfl (.match hcall (Arms.of ?_))
    rw [hty]
    intro y hy
    by_cases hreq : f.required = true
    · simp only [hreq, if_true] at hy harms ⊢
      rcases List.mem_append.mp hy with hy | hy
      · obtain ⟨x, hx, hxy⟩ := mapM_source harms y hy
        simp only [Full.requiredArm, Option.bind_eq_bind, Option.bind_eq_some_iff, Option.pure_def, Option.some.injEq] at hxy
        obtain ⟨w', hw', i, hi, rfl⟩ := hxy
        obtain rfl := Gen.formatIdent_eq hi
        refine ⟨.variant hen.2.1 (unit _ (List.mem_cons_of_mem _ (List.mem_map_of_mem hx))), ?_⟩
        refine .ctor ok.ne_nil ok.2.1 (G.tuple hx r) (.try (u := .error) (.valMethod (hmem x hx w' hw') (.okOr _ _) (.cons (hms _) .nil)) hret)
      · rw [List.mem_singleton] at hy
        subst hy
        simp only [Full.lastArm, if_true]
        refine ⟨.variant hen.2.1 (unit _ (by simp)), .ret ?_⟩
        rw [hret]
        exact .err rfl (hms _)
    · simp only [hreq, Bool.false_eq_true, if_false] at hy harms ⊢
      rcases List.mem_append.mp hy with hy | hy
      · obtain ⟨x, hx, hxy⟩ := mapM_source harms y hy
        simp only [Full.optionalArm, Option.bind_eq_bind, Option.bind_eq_some_iff, Option.pure_def, Option.some.injEq] at hxy
        obtain ⟨w', hw', i, hi, rfl⟩ := hxy
        obtain rfl := Gen.formatIdent_eq hi
        exact ⟨.some (.variant hen.2.1 (unit _ (List.mem_cons_of_mem _ (List.mem_map_of_mem hx)))),
          .mapCtor (hmem x hx w' hw') ok.ne_nil ok.2.1 (G.tuple hx r)⟩
      · rw [List.mem_singleton] at hy
        subst hy
        simp only [Full.lastArm, Bool.false_eq_true, if_false]
        exact ⟨.or .none (.some (.variant hen.2.1 (unit _ (by simp)))), .none rfl⟩
  · rename_i hnu
    cases h
    refine ⟨_, rfl, rfl, rfl, ?_⟩
    have hfo := follow_of_kind hk hnu
    have hd' : Typed F X [(c!"self", .ref r false (tblTy m n b))] d (.option (lty f.ty r)) := by
      refine getDefault_typed (by cases hty : f.ty <;> first | rfl | exact absurd hty (hnu _ _ _)) G hk rfl rfl hw (fun hp => ?_) hd
      have := typeToken_wrap (l := c!"_") (r := r) A (h4 r) ok rfl hw
      rwa [lwrap, if_pos hp] at this
    have hget := T.get_typed h1 h2 h3 h4 hb hr rfl hf G hfo ok hw hd'
    unfold Full.plainBody
    rw [lret] at hret ⊢
    by_cases hreq : f.required = true
    · simp only [hreq, if_true] at hret ⊢
      exact .valMethod (.try hget hret) (.okOr _ _) (.cons (missing_typed A _) .nil)
    · simp only [hreq, Bool.false_eq_true, if_false]
      exact hget

theorem accessor_checks (T : TableCk F m n ns fs args adds accs consts) {f : Ir.Field} (hf : f ∈ fs)
    (hu : ∀ q en us, f.ty = .union q en us → UnionCk F m ns fs f q en us) {a : Fn} (h : Full.accessor n ns f = some a) :
    FnChecks F (accEnv F m n) [.ty c!"B"] [c!"B"] a := by
  obtain ⟨body, h1, h2, h3, h4⟩ := T.body_typed (X := ⟨{ a.env (accEnv F m n) [.ty c!"B"] with elide := fun _ => True },
      Outlives (knownBounds ([.ty c!"B"] ++ a.generics)), [c!"B"], lret f (.elided 0)⟩) (Γ := [(c!"self", .ref (.elided 0) false (tblTy m n (.param c!"B")))])
      rfl rfl (fun r => .refl r) (fun _ => trivial) (b := .param c!"B") (.param (by simp)) (r := .elided 0) (by simp) rfl hf rfl hu h
  refine ⟨?_, _, _, T.accessor_sig hf h rfl rfl rfl rfl, ?_⟩
  · intro t ht
    rw [h3] at ht
    cases ht
  · rw [h1, h2, h3]
    exact .value h4

theorem tableAccess_checks (T : TableCk F m n ns fs args adds accs consts)
    (hu : ∀ f ∈ fs, ∀ q en us, f.ty = .union q en us → UnionCk F m ns fs f q en us) : ItemChecks F m (Full.tableAccess n accs) := by
  have A := T.paths (gs := [c!"B"]) (.inr rfl)
  refine ⟨?_, tblTy m n (.param c!"B"), [], T.ofB rfl rfl rfl, ?_, ?_, ?_, by simp⟩
  · simp [Full.ofB, Full.word, Ty.lives, argLives]
  · rw [implTypes_append, implTypes_fns]
    exact .nil
  · intro b x t l h
    simp at h
  · intro f hf
    simp only [List.mem_append, List.mem_map, ImplItem.fn.injEq, exists_eq_right, List.mem_cons, List.not_mem_nil, or_false] at hf
    rcases hf with hf | rfl
    · obtain ⟨x, hx, hxf⟩ := mapM_source T.accFns f hf
      exact T.accessor_checks hx (hu x hx) hxf
    · refine ⟨?_, [.param c!"B"], .result (tblTy m n (.param c!"B")) .error, ⟨.named (B_means rfl rfl) .nil, resultTy_means A (.self rfl)⟩, ?_⟩
      · simp [OneElided, Full.getRootFn, Param.ty?, Full.word, Ty.lives, argLives]
      · exact .let (.try (u := .error) (.rtCall (p := [c!"butte", c!"Table"]) (A.butte _ _) (.tableRoot (.param (by simp [Full.asRef]))) (.cons (find_var rfl) .nil)) rfl)
          (.value (.ok rfl (.struct (.self rfl) (T.fields _) (.var (find_var rfl) .nil))))

end TableCk

end

end Butte.Src.Check
