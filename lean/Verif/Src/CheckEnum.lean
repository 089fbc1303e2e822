import Verif.Src.CheckItems
/-
The code of enums and unions keeps the type rules.
-/
namespace Butte.Src.Check
open Ir (QIdent All₂)
open Rs (Program Hygienic modOf Scope Lit)

/-- The type of an enum. -/
abbrev enmTy (m : List Str) (n : Str) : LTy := .app (.item m n) [] []
/-- The type of a union. -/
abbrev unnTy (m : List Str) (n : Str) (r : Region) : LTy := .app (.item m n) [r] []

/-- What there is for an enum. -/
structure EnumTypes (F : File) (m : List Str) (n : Str) (b : STy) (vs : List (Str × Lit × Ast.Comment)) : Prop where
  hygienic : Hygienic F.prog
  own : ∀ s, Rs.resolve F.prog ⟨m, [], s⟩ [n] = some (.item m n)
  item : ∃ doc, F.item m n = some (Full.enumItem n (Rs.primName b) doc vs)
  default : (m, Full.enumDefault n vs) ∈ flatItems [] F.items
  follow : (m, Full.enumFollow n (Rs.primName b)) ∈ flatItems [] F.items
  tryFrom : (m, Full.enumTryFrom n (Rs.primName b) vs) ∈ flatItems [] F.items
  into : (m, Full.enumInto n (Rs.primName b) vs) ∈ flatItems [] F.items
  push : (m, Full.enumPush n (Rs.primName b)) ∈ flatItems [] F.items

section
variable {F : File} {k : TyEnv} {m : List Str} {n : Str} {b : STy} {vs : List (Str × Lit × Ast.Comment)}

namespace EnumTypes

theorem paths (T : EnumTypes F m n b vs) : Paths F.prog m [] := Paths.of T.hygienic m (.inl rfl)

theorem kind (T : EnumTypes F m n b vs) : F.kind (.item m n) = some (0, 0) := by
  obtain ⟨doc, h⟩ := T.item
  simp only [File.kind, h]
  rfl

theorem means (T : EnumTypes F m n b vs) (hm : k.sc.module = m) (hg : k.sc.generics = []) : Means F k (Full.word n) (enmTy m n) := by
  cases k with | mk sc _ _ _ _ _ =>
  cases sc
  cases hm
  cases hg
  refine .app (rs := []) (ts := []) ?_ (T.own _) T.kind .nil
  have := ne_self_of rfl (T.own none)
  simpa using this

theorem names (T : EnumTypes F m n b vs) : variantNames F (enmTy m n) = vs.map (·.1) := by
  obtain ⟨doc, h⟩ := T.item
  simp only [variantNames, h, Full.enumItem, List.map_map]
  rfl

theorem unit (T : EnumTypes F m n b vs) {x : Str × Lit × Ast.Comment} (hx : x ∈ vs) : UnitVariant F (.item m n) x.1 (enmTy m n) := by
  obtain ⟨doc, h⟩ := T.item
  exact .mk (v := ⟨Full.comment x.2.2, x.1, .value x.2.1⟩) (rs := []) (ts := []) h (List.mem_map.mpr ⟨x, hx, rfl⟩) rfl T.kind

theorem hasDefault (T : EnumTypes F m n b vs) (ps : List Str) : Implements F ps (.std c!"Default") [] [] (enmTy m n) [] :=
  .mk (rs := []) (ts := []) T.default (T.paths.default _) .nil (T.means rfl rfl) (by simp [WhereHolds]) .nil

theorem hasFollow (T : EnumTypes F m n b vs) (ps : List Str) (r : Region) :
    Implements F ps (.butte c!"Follow") [r] [] (enmTy m n) [(c!"Inner", enmTy m n)] :=
  .mk (rs := [r]) (ts := []) T.follow (T.paths.butte _ _) (.life (life_means (by decide) (by decide) rfl) .nil) (T.means rfl rfl)
    (by simp [WhereHolds]) (.cons ⟨rfl, .self rfl⟩ .nil)

theorem hasTryFrom (T : EnumTypes F m n b vs) (ps : List Str) :
    Implements F ps (.std c!"TryFrom") [] [.prim b] (enmTy m n) [(c!"Error", .error)] :=
  .mk (rs := []) (ts := []) T.tryFrom (T.paths.std _ _) (.one (word_means T.paths b)) (T.means rfl rfl)
    (by simp [WhereHolds]) (.cons ⟨rfl, error_means T.paths⟩ .nil)

theorem hasFrom (T : EnumTypes F m n b vs) (ps : List Str) : Implements F ps (.std c!"From") [] [enmTy m n] (.prim b) [] :=
  .mk (rs := []) (ts := []) T.into (T.paths.from_ _) (.one (T.means rfl rfl)) (word_means T.paths b) (by simp [WhereHolds]) .nil

theorem hasPush (T : EnumTypes F m n b vs) (ps : List Str) :
    Implements F ps (.butte c!"Push") [] [] (enmTy m n) [(c!"Output", enmTy m n)] :=
  .mk (rs := []) (ts := []) T.push (T.paths.butte _ _) .nil (T.means rfl rfl) (by simp [WhereHolds]) (.cons ⟨rfl, .self rfl⟩ .nil)

end EnumTypes

theorem Arms.of {X : Cx} {Γ : Locals} {t u : LTy} : ∀ {as : List (Pat × Expr)}, (∀ a ∈ as, PatTy F X a.1 t [] ∧ Typed F X Γ a.2 u) →
    Arms F X Γ t u as
  | [], _ => .nil
  | a :: as, h => .cons (bs := []) (h a (by simp)).1 (h a (by simp)).2 (Arms.of fun a ha => h a (by simp [ha]))

theorem enumItem_checks (doc : Ast.Comment) : ItemChecks F m (Full.enumItem n (Rs.primName b) doc vs) := by
  intro v hv w hw
  obtain ⟨x, -, rfl⟩ := List.mem_map.mp hv
  simp [Payload.tys] at hw

theorem enumDefault_checks (T : EnumTypes F m n b vs) (hv : vs ≠ []) : ItemChecks F m (Full.enumDefault n vs) := by
  have A := T.paths
  cases hvs : vs with
  | nil => exact absurd hvs hv
  | cons x xs =>
    have hs : Sig F ((⟨[], false, c!"default", [], [], some Full.selfTy, [], some (.path [n, x.1] [])⟩ : Fn).env
        (bodyEnv F m [] [] [] (Full.word n) (enmTy m n) []) [])
        ⟨[], false, c!"default", [], [], some Full.selfTy, [], some (.path [n, x.1] [])⟩ bodyElide [] (enmTy m n) :=
      ⟨.nil, .self rfl⟩
    refine impl_one (self := enmTy m n) (assoc := []) ?_ ?_ rfl (T.means rfl rfl) .nil ⟨?_, _, _, hs, ?_⟩
      (trait_one (A.default _) .nil (.default _) hs)
    · simp [Full.word, Ty.lives, argLives]
    · simp [Full.enumDefaultValue]
    · simp [OneElided]
    · exact .value (.variant (p := [n]) (by simp) (T.own _) (T.unit (by simp [hvs])))

theorem enumFollow_checks (T : EnumTypes F m n b vs) (hi : c!"Inner" ∉ vs.map (·.1)) : ItemChecks F m (Full.enumFollow n (Rs.primName b)) := by
  have A := T.paths
  have ha := fun (k : TyEnv) (h : k.lives = [(c!"a", .named c!"a")]) =>
    life_means (k := k) (l := c!"a") (r := .named c!"a") (by decide) (by decide) (by rw [h]; rfl)
  have hs : Sig F ((⟨[], false, c!"follow", [], [.named c!"buf" (Full.bytes (some c!"a")), .named c!"loc" (Full.word c!"usize")], some Full.innerResult,
        [.let false c!"scalar" (.try (.call (.path [c!"butte", c!"read_scalar_at"] [.ty (Full.word (Rs.primName b))]) [Full.v c!"buf", Full.v c!"loc"]))],
        some (.call (.qpath Full.selfTy (some (Full.tryFromTy (Rs.primName b))) c!"try_from") [Full.v c!"scalar"])⟩ : Fn).env
      (bodyEnv F m [.life c!"a" none] [.named c!"a"] [] (Full.word n) (enmTy m n) [(c!"Inner", enmTy m n)]) [.life c!"a" none])
      ⟨[], false, c!"follow", [], [.named c!"buf" (Full.bytes (some c!"a")), .named c!"loc" (Full.word c!"usize")], some Full.innerResult,
        [.let false c!"scalar" (.try (.call (.path [c!"butte", c!"read_scalar_at"] [.ty (Full.word (Rs.primName b))]) [Full.v c!"buf", Full.v c!"loc"]))],
        some (.call (.qpath Full.selfTy (some (Full.tryFromTy (Rs.primName b))) c!"try_from") [Full.v c!"scalar"])⟩ bodyElide
      [.ref (.named c!"a") false .bytes, .usize] (.result (enmTy m n) .error) :=
    ⟨.named (bytes_means A (ha _ rfl)) (.named (.usize (A.usize _)) .nil), resultTy_means A (.assoc rfl (by rwa [T.names]) rfl)⟩
  refine impl_one (self := enmTy m n) (assoc := [(c!"Inner", enmTy m n)]) ?_ ?_ rfl (T.means rfl rfl) (.cons ⟨rfl, .self rfl⟩ .nil)
    ⟨?_, _, _, hs, ?_⟩ (trait_one (A.butte _ _) (.life (ha _ rfl) .nil) (.follow _ _ _) hs)
  · simp [Full.followTy, Full.word, Ty.lives, argLives]
    decide
  · simp
  · simp [OneElided, Param.ty?, Full.bytes, Full.word, Ty.lives, argLives]
    decide
  · refine .let (.try (.rtFn (A.butte _ _) (word_means A b) (.read _ _) (.cons (find_var rfl) (.cons (find_var rfl) .nil))) rfl) (.value ?_)
    exact .tryFrom (.self rfl) (A.std _ _) (.one (word_means A b)) (T.hasTryFrom _) rfl (find_var rfl)

theorem enumTryFrom_checks (T : EnumTypes F m n b vs) (hi : c!"Error" ∉ vs.map (·.1)) (hl : ∀ x ∈ vs, litLTy x.2.1 = some (.prim b)) :
    ItemChecks F m (Full.enumTryFrom n (Rs.primName b) vs) := by
  have A := T.paths
  have hs : Sig F ((⟨[], false, c!"try_from", [], [.named c!"value" (Full.word (Rs.primName b))],
        some (.path [c!"Result"] false [.ty Full.selfTy, .ty (.path [c!"Self", c!"Error"] false [])]), [],
        some (.match (Full.v c!"value") (vs.map (fun x => (Pat.lit x.2.1, Full.ok (.qpath (Full.word n) none x.1))) ++
          [(.wild, .call (Full.v c!"Err") [.path [c!"butte", c!"Error", c!"UnknownEnumVariant"] []])]))⟩ : Fn).env
      (bodyEnv F m [] [] [] (Full.word n) (enmTy m n) [(c!"Error", .error)]) [])
      ⟨[], false, c!"try_from", [], [.named c!"value" (Full.word (Rs.primName b))],
        some (.path [c!"Result"] false [.ty Full.selfTy, .ty (.path [c!"Self", c!"Error"] false [])]), [],
        some (.match (Full.v c!"value") (vs.map (fun x => (Pat.lit x.2.1, Full.ok (.qpath (Full.word n) none x.1))) ++
          [(.wild, .call (Full.v c!"Err") [.path [c!"butte", c!"Error", c!"UnknownEnumVariant"] []])]))⟩ bodyElide
      [.prim b] (.result (enmTy m n) .error) :=
    ⟨.named (word_means A b) .nil, result_means A (.self rfl) (.assoc rfl (by rwa [T.names]) rfl)⟩
  refine impl_one (self := enmTy m n) (assoc := [(c!"Error", .error)]) ?_ ?_ rfl (T.means rfl rfl) (.cons ⟨rfl, error_means A⟩ .nil)
    ⟨?_, _, _, hs, ?_⟩ (trait_one (A.std _ _) (.one (word_means A b)) (.tryFrom _ _ _) hs)
  · simp [Full.tryFromTy, Full.word, Ty.lives, argLives]
  · simp
  · simp [OneElided, Param.ty?, Full.word, Ty.lives, argLives]
  · refine .value (.match (find_var rfl) (Arms.of ?_))
    intro a ha
    rcases List.mem_append.mp ha with ha | ha
    · obtain ⟨x, hx, rfl⟩ := List.mem_map.mp ha
      exact ⟨.lit (hl x hx), .ok rfl (.qvariant (T.means rfl rfl) (T.unit hx))⟩
    · rw [List.mem_singleton] at ha
      subst ha
      exact ⟨.wild, .err rfl (.unknownVariant (p := [c!"butte", c!"Error"]) (A.butte _ _))⟩

theorem enumInto_checks (T : EnumTypes F m n b vs) (hl : ∀ x ∈ vs, litLTy x.2.1 = some (.prim b)) :
    ItemChecks F m (Full.enumInto n (Rs.primName b) vs) := by
  have A := T.paths
  have hs : Sig F ((⟨[], false, c!"from", [], [.named c!"value" (Full.word n)], some (Full.word (Rs.primName b)), [],
      some (.match (Full.v c!"value") (vs.map fun x => (Pat.qpath (Full.word n) x.1, .lit x.2.1)))⟩ : Fn).env
      (bodyEnv F m [] [] [] (Full.word (Rs.primName b)) (.prim b) []) [])
      ⟨[], false, c!"from", [], [.named c!"value" (Full.word n)], some (Full.word (Rs.primName b)), [],
      some (.match (Full.v c!"value") (vs.map fun x => (Pat.qpath (Full.word n) x.1, .lit x.2.1)))⟩ bodyElide [enmTy m n] (.prim b) :=
    ⟨.named (T.means rfl rfl) .nil, word_means A b⟩
  refine impl_one (self := .prim b) (assoc := []) ?_ ?_ rfl (word_means A b) .nil
    ⟨?_, _, _, hs, ?_⟩ (trait_one (A.from_ _) (.one (T.means rfl rfl)) (.from _ _) hs)
  · simp [Full.word, Ty.lives, argLives]
  · simp
  · simp [OneElided, Param.ty?, Full.word, Ty.lives, argLives]
  · refine .value (.match (find_var rfl) (Arms.of ?_))
    intro a ha
    obtain ⟨x, hx, rfl⟩ := List.mem_map.mp ha
    exact ⟨.qvariant (T.means rfl rfl) (T.unit hx), .lit (hl x hx)⟩

theorem enumPush_checks (T : EnumTypes F m n b vs) : ItemChecks F m (Full.enumPush n (Rs.primName b)) := by
  have A := T.paths
  have hs : Sig F ((⟨[Full.inlineAttr], false, c!"push", [],
        [.refSelf false, .named c!"dst" (.ref none true (.slice (Full.word c!"u8"))), .named c!"_rest" (Full.bytes none)], none,
        [.let false c!"scalar" (.call (.qpath (Full.word (Rs.primName b)) none c!"from") [.deref (Full.v c!"self")]),
          .expr (.call (.path [c!"butte", c!"emplace_scalar"] [.ty (Full.word (Rs.primName b))]) [Full.v c!"dst", Full.v c!"scalar"])], none⟩ : Fn).env
      (bodyEnv F m [] [] [] (Full.word n) (enmTy m n) [(c!"Output", enmTy m n)]) [])
      ⟨[Full.inlineAttr], false, c!"push", [],
        [.refSelf false, .named c!"dst" (.ref none true (.slice (Full.word c!"u8"))), .named c!"_rest" (Full.bytes none)], none,
        [.let false c!"scalar" (.call (.qpath (Full.word (Rs.primName b)) none c!"from") [.deref (Full.v c!"self")]),
          .expr (.call (.path [c!"butte", c!"emplace_scalar"] [.ty (Full.word (Rs.primName b))]) [Full.v c!"dst", Full.v c!"scalar"])], none⟩ bodyElide
      [.ref (.elided 0) false (enmTy m n), .ref (.elided 1) true .bytes, .ref (.elided 2) false .bytes] .unit :=
    ⟨.refSelf rfl rfl (.named (.ref rfl (.slice (.prim (A.u8 _)))) (.named (bytes_means A rfl) .nil)), rfl⟩
  refine impl_one (self := enmTy m n) (assoc := [(c!"Output", enmTy m n)]) ?_ ?_ rfl (T.means rfl rfl) (.cons ⟨rfl, .self rfl⟩ .nil)
    ⟨?_, _, _, hs, ?_⟩ (trait_one (A.butte _ _) .nil (.push _ _) hs)
  · simp [Full.word, Ty.lives, argLives]
  · simp
  · simp [OneElided, Param.ty?, Full.bytes, Full.word]
    rintro t (rfl | rfl) <;> simp [Ty.lives, argLives]
  · refine .let (.from (word_means A b) ?_ (T.hasFrom _) (.place (.deref (.var rfl)))) (.expr (t := .unit) ?_ .unit)
    · simp [variantNames]
    · exact .rtFn (A.butte _ _) (word_means A b) (.emplace _ _) (.cons (find_var rfl) (.cons (find_var rfl) .nil))

theorem enumName_checks (T : EnumTypes F m n b vs) : ItemChecks F m (Full.enumName n vs) := by
  have A := T.paths
  refine ⟨?_, [enmTy m n], .ref .static false .str, ⟨.named (T.means rfl rfl) .nil, .ref ?_ (.str (A.str _))⟩, ?_⟩
  · simp [OneElided, Param.ty?, Full.word, Ty.lives, argLives]
  · rfl
  · refine .value (.match (find_var rfl) (Arms.of ?_))
    intro a ha
    obtain ⟨x, hx, rfl⟩ := List.mem_map.mp ha
    exact ⟨.variant (p := [n]) (T.own _) (T.unit hx), .lit rfl⟩

theorem enum_checks {e : Ir.Enum} {ys : List Item} (h : Full.enum e = some ys)
    (T : ∀ vs, (List.zipIdx e.variants).mapM (Full.variantLit (Rs.baseName e.base)) = some vs →
      EnumTypes F m (QIdent.simple e.ident) (Gen.enumBaseSTy e.base) vs ∧ vs ≠ [] ∧ c!"Inner" ∉ vs.map (·.1) ∧ c!"Error" ∉ vs.map (·.1) ∧
        ∀ x ∈ vs, litLTy x.2.1 = some (.prim (Gen.enumBaseSTy e.base))) : ∀ y ∈ ys, ItemChecks F m y := by
  simp only [Full.enum, Option.bind_eq_bind, Option.bind_eq_some_iff, Option.pure_def, Option.some.injEq] at h
  obtain ⟨n, hn, vs, hvs, rfl⟩ := h
  obtain rfl := Gen.formatIdent_eq hn
  obtain ⟨T, h1, h2, h3, h4⟩ := T vs hvs
  intro y hy
  simp only [List.mem_cons, List.not_mem_nil, or_false] at hy
  rcases hy with rfl | rfl | rfl | rfl | rfl | rfl | rfl
  · exact enumItem_checks _
  · exact enumDefault_checks T h1
  · exact enumFollow_checks T h2
  · exact enumTryFrom_checks T h3 h4
  · exact enumInto_checks T h4
  · exact enumPush_checks T
  · exact enumName_checks T

/-! ### Unions -/

/-- What there is for a union. -/
structure UnionTypes (F : File) (m : List Str) (n : Str) (ns : Option QIdent) (us : List Ir.UnionVariant) (vs : List Variant) : Prop where
  hygienic : Hygienic F.prog
  own : ∀ s, Rs.resolve F.prog ⟨m, [], s⟩ [n] = some (.item m n)
  item : ∃ doc, F.item m n = some (Full.unionItem n doc vs)
  variants : us.mapM (Full.unionVariant ns) = some vs
  types : ∀ u ∈ us, ∀ s, OkTy F ⟨m, [], s⟩ ns u.ty

variable {ns : Option QIdent} {us : List Ir.UnionVariant} {ws : List Variant}

namespace UnionTypes

theorem paths (T : UnionTypes F m n ns us ws) : Paths F.prog m [] := Paths.of T.hygienic m (.inl rfl)

theorem kind (T : UnionTypes F m n ns us ws) : F.kind (.item m n) = some (1, 0) := by
  obtain ⟨doc, h⟩ := T.item
  simp only [File.kind, h]
  rfl

theorem means (T : UnionTypes F m n ns us ws) {u : Ir.UnionVariant} (hu : u ∈ us) {t : Ty}
    (ht : Full.typeToken ns u.ty c!"a" none false = some t) (r : Region) :
    Means F (declEnv m [.life c!"a" none] [r] []) t (lty u.ty r) :=
  typeToken_means (k := declEnv m [.life c!"a" none] [r] []) T.paths (life_means (by decide) (by decide) rfl) (T.types u hu _) (.inl rfl) ht

theorem tuple (T : UnionTypes F m n ns us ws) {u : Ir.UnionVariant} (hu : u ∈ us) (r : Region) :
    TupleVariant F (.item m n) u.ident (lty u.ty r) (unnTy m n r) := by
  obtain ⟨doc, h⟩ := T.item
  obtain ⟨v, hv, hvu⟩ := mapM_image T.variants u hu
  simp only [Full.unionVariant, Option.bind_eq_bind, Option.bind_eq_some_iff, Option.pure_def, Option.some.injEq] at hvu
  obtain ⟨i, hi, t, ht, rfl⟩ := hvu
  obtain rfl := Gen.formatIdent_eq hi
  exact .mk (v := ⟨Full.comment u.doc, u.ident, .tuple t⟩) (rs := [r]) (ts := []) h hv rfl T.kind (T.means hu ht r)

end UnionTypes

theorem unionItem_checks (T : UnionTypes F m n ns us ws) (doc : Ast.Comment) : ItemChecks F m (Full.unionItem n doc ws) := by
  intro v hv w hw
  obtain ⟨u, hu, huv⟩ := mapM_source T.variants v hv
  simp only [Full.unionVariant, Option.bind_eq_bind, Option.bind_eq_some_iff, Option.pure_def, Option.some.injEq] at huv
  obtain ⟨i, hi, t, ht, rfl⟩ := huv
  simp only [Payload.tys, List.mem_singleton] at hw
  subst hw
  exact ⟨_, T.means hu ht _⟩

theorem unionImpl_checks (T : UnionTypes F m n ns us ws) {q : QIdent} (hq : ∀ s, OkPath F ⟨m, [], s⟩ ns q (0, 0))
    (hv : ∀ u ∈ us, UnitVariant F (defOf q) u.ident (.app (defOf q) [] [])) :
    ItemChecks F m (Full.unionImpl n (QIdent.relative q ns) us) := by
  have A := T.paths
  have ne : (QIdent.relative q ns) ≠ [] := by
    intro e
    have := (hq none).2.1
    rw [e] at this
    simp [Rs.resolve] at this
  refine ⟨?_, unnTy m n .header, [], ?_, .nil, by simp, ?_, by simp⟩
  · simp [Ty.lives, argLives]
    decide
  · refine .app (rs := [_]) (ts := []) ?_ (T.own _) T.kind (.life rfl .nil)
    have := ne_self_of rfl (T.own none)
    simpa using this
  · intro f hf
    simp only [List.mem_singleton, ImplItem.fn.injEq] at hf
    subst hf
    refine ⟨?_, [.ref (.elided 0) false (unnTy m n .header)], .app (defOf q) [] [], ⟨.refSelf rfl rfl .nil, ?_⟩, ?_⟩
    · simp [OneElided, Param.ty?]
    · exact .app (rs := []) (ts := []) (hq none).1 (hq _).2.1 (hq none).2.2 .nil
    · refine .value (.match (find_var rfl) (Arms.of ?_))
      intro a ha
      obtain ⟨x, hx, rfl⟩ := List.mem_map.mp ha
      exact ⟨.ref (.rest (p := [n]) (T.own _) (T.tuple hx _)), .variant ne (hq _).2.1 (hv x hx)⟩

theorem union_checks {u : Ir.Union} {ys : List Item} (h : Full.union u = some ys)
    (T : ∀ vs, u.variants.mapM (Full.unionVariant (QIdent.namespace u.ident)) = some vs →
      UnionTypes F m (QIdent.simple u.ident) (QIdent.namespace u.ident) u.variants vs)
    (hq : ∀ s, OkPath F ⟨m, [], s⟩ (QIdent.namespace u.ident) u.enumIdent (0, 0))
    (hv : ∀ v ∈ u.variants, UnitVariant F (defOf u.enumIdent) v.ident (.app (defOf u.enumIdent) [] [])) : ∀ y ∈ ys, ItemChecks F m y := by
  simp only [Full.union, Option.bind_eq_bind, Option.bind_eq_some_iff, Option.pure_def, Option.some.injEq] at h
  obtain ⟨n, hn, e, he, vs, hvs, rfl⟩ := h
  obtain rfl := Gen.formatIdent_eq hn
  obtain rfl := pathTokens_eq he
  intro y hy
  simp only [List.mem_cons, List.not_mem_nil, or_false] at hy
  rcases hy with rfl | rfl
  · exact unionItem_checks (T vs hvs) _
  · exact unionImpl_checks (T vs hvs) hq hv

end

end Butte.Src.Check
