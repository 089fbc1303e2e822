import Verif.Src.Check
import Verif.Src.TraitsOk
/-
The types in the generated source, with lifetimes.
-/
namespace Butte.Src.Check
open Ir (QIdent)
open Rs (Program Hygienic modOf pathTokens fwdPath wipPath Scope)

/-- What a name of the schema leads to. -/
def defOf (q : QIdent) : Rs.Def := .item (modOf q) (QIdent.simple q)

/-- Types whose values are stored where they are. -/
def isPlain : Ir.Ty → Bool
  | .builtin _ | .struct .. | .enum .. => true
  | _ => false

/-- The type of values of a type of the schema that live for `r`. -/
def lty : Ir.Ty → Region → LTy
  | .builtin b, _ => .prim (Gen.builtinSTy b)
  | .string, r => .ref r false .str
  | .array t, r => .app (.butte c!"Vector") [r] [if isPlain t then lty t r else .butteOf c!"ForwardsUOffset" (lty t r)]
  | .table q, r => .app (defOf q) [] [.ref r false .bytes]
  | .union q _ _, r => .app (defOf q) [r] []
  | .struct q _, _ | .enum q _ _, _ => .app (defOf q) [] []

/-- The type of what is stored for them. -/
def lwrap (b : Str) (ty : Ir.Ty) (r : Region) : LTy := if isPlain ty then lty ty r else .butteOf b (lty ty r)

/-- A name of the schema can be used in a scope. -/
def OkPath (F : File) (sc : Scope) (ns : Option QIdent) (q : QIdent) (k : Nat × Nat) : Prop :=
  (QIdent.relative q ns).head? ≠ some c!"Self" ∧ Rs.resolve F.prog sc (QIdent.relative q ns) = some (defOf q) ∧ F.kind (defOf q) = some k

@[inherit_doc OkPath]
def OkTy (F : File) (sc : Scope) (ns : Option QIdent) : Ir.Ty → Prop
  | .builtin _ | .string => True
  | .array t => OkTy F sc ns t
  | .table q => OkPath F sc ns q (0, 1)
  | .union q _ _ => OkPath F sc ns q (1, 0)
  | .struct q _ | .enum q _ _ => OkPath F sc ns q (0, 0)

/-- All generated code sees the names it relies on. -/
abbrev Sees (F : File) (sc : Scope) : Prop := Paths F.prog sc.module sc.generics

section
variable {F : File} {k : TyEnv} {ns : Option QIdent}

theorem ArgsMean.one {t : Ty} {u : LTy} (h : Means F k t u) : ArgsMean F k [.ty t] [] [u] := .ty h .nil

theorem pathTokens_eq {q : QIdent} {p : List Str} (h : pathTokens q = some p) : p = q := by
  unfold pathTokens at h
  split at h <;> simp_all

theorem butte_means (A : Sees F k.sc) {b : Str} {c : Bool} {as : List GArg} {rs : List Region} {ts : List LTy}
    (hk : F.kind (.butte b) = some (rs.length, ts.length)) (h : ArgsMean F k as rs ts) :
    Means F k (.path [c!"butte", b] c as) (.app (.butte b) rs ts) :=
  .app (by simp) (A.butte _ _) hk h

theorem word_means (A : Sees F k.sc) (t : STy) : Means F k (Full.word (Rs.primName t)) (.prim t) := .prim (A.prim _ _)

theorem bytes_means (A : Sees F k.sc) {l : Option Str} {r : Region} (hl : LifeMeans k (l.bind lifeOf) r) :
    Means F k (Full.bytes l) (.ref r false .bytes) := .ref hl (.slice (.prim (A.u8 _)))

theorem error_means (A : Sees F k.sc) : Means F k Full.errorTy .error := butte_means A rfl .nil

theorem result_means (A : Sees F k.sc) {t e : Ty} {u v : LTy} (h : Means F k t u) (h' : Means F k e v) :
    Means F k (.path [c!"Result"] false [.ty t, .ty e]) (.result u v) :=
  .app (by simp) (A.result _) rfl (.ty h (.one h'))

theorem resultTy_means (A : Sees F k.sc) {t : Ty} {u : LTy} (h : Means F k t u) : Means F k (Full.resultTy t) (.result u .error) :=
  result_means A h (error_means A)

theorem option_means (A : Sees F k.sc) {t : Ty} {u : LTy} (h : Means F k t u) : Means F k (Full.optionTy t) (.option u) :=
  .app (by simp) (A.option _) rfl (.one h)

theorem butteOf_means (A : Sees F k.sc) {b : Str} {c : Bool} (hb : F.kind (.butte b) = some (0, 1)) {t : Ty} {u : LTy}
    (h : Means F k t u) : Means F k (.path [c!"butte", b] c [.ty t]) (.butteOf b u) := butte_means A hb (.one h)

theorem wip_means (A : Sees F k.sc) {t : Ty} {u : LTy} (h : Means F k t u) : Means F k (Full.wip t) (.butteOf c!"WIPOffset" u) :=
  butteOf_means A rfl h

theorem life_refLife {l : Str} {r : Region} (h : LifeMeans k (lifeOf l) r) : LifeMeans k ((Full.refLife l).bind lifeOf) r := by
  unfold Full.refLife
  split
  · rename_i e
    rwa [lifeOf, if_pos e] at h
  · exact h

theorem wrapped_means (A : Sees F k.sc) {t : Ty} {T : LTy} (h : Means F k t T) (wrap : Option (List Str)) (outer : Bool) :
    (wrap = none ∨ outer = false → Means F k (Full.wrapped wrap outer t) T) ∧
      ∀ b, wrap = some [c!"butte", b] → F.kind (.butte b) = some (0, 1) → outer = true →
        Means F k (Full.wrapped wrap outer t) (.butteOf b T) := by
  constructor
  · rintro (rfl | rfl)
    · exact h
    · cases wrap <;> exact h
  · rintro b rfl hb rfl
    exact butteOf_means A hb h

theorem typeToken_both (A : Sees F k.sc) {l : Str} {r : Region} (hl : LifeMeans k (lifeOf l) r) :
    ∀ {ty : Ir.Ty} {wrap : Option (List Str)} {outer : Bool} {t : Ty}, OkTy F k.sc ns ty → Full.typeToken ns ty l wrap outer = some t →
      (wrap = none ∨ outer = false → Means F k t (lty ty r)) ∧
      ∀ b, wrap = some [c!"butte", b] → F.kind (.butte b) = some (0, 1) → outer = true → Means F k t (lwrap b ty r)
  | .builtin b, wrap, outer, t, _, h => by
    cases h
    exact ⟨fun _ => word_means A _, fun _ _ _ _ => word_means A _⟩
  | .string, wrap, outer, t, _, h => by
    cases h
    exact wrapped_means A (.ref (life_refLife hl) (.str (A.str _))) _ _
  | .array e, wrap, outer, t, ho, h => by
    simp only [Full.typeToken, Option.bind_eq_bind, Option.bind_eq_some_iff, Option.pure_def, Option.some.injEq] at h
    obtain ⟨c, hc, rfl⟩ := h
    have := (typeToken_both A hl (ty := e) ho hc).2 _ rfl rfl rfl
    exact wrapped_means A (butte_means A rfl (.life hl (.one this))) _ _
  | .table q, wrap, outer, t, ho, h => by
    simp only [Full.typeToken, Option.bind_eq_bind, Option.bind_eq_some_iff, Option.pure_def, Option.some.injEq] at h
    obtain ⟨c, hc, rfl⟩ := h
    obtain rfl := pathTokens_eq hc
    exact wrapped_means A (.app (rs := []) (ts := [_]) ho.1 ho.2.1 ho.2.2 (.one (bytes_means A (life_refLife hl)))) _ _
  | .union q _ _, wrap, outer, t, ho, h => by
    simp only [Full.typeToken, Option.bind_eq_bind, Option.bind_eq_some_iff, Option.pure_def, Option.some.injEq] at h
    obtain ⟨c, hc, rfl⟩ := h
    obtain rfl := pathTokens_eq hc
    exact wrapped_means A (.app (rs := [_]) (ts := []) ho.1 ho.2.1 ho.2.2 (.life hl .nil)) _ _
  | .struct q _, wrap, outer, t, ho, h => by
    simp only [Full.typeToken, Option.bind_eq_bind, Option.bind_eq_some_iff, Option.pure_def, Option.some.injEq] at h
    obtain ⟨c, hc, rfl⟩ := h
    obtain rfl := pathTokens_eq hc
    exact ⟨fun _ => .app ho.1 ho.2.1 ho.2.2 .nil, fun _ _ _ _ => .app ho.1 ho.2.1 ho.2.2 .nil⟩
  | .enum q _ _, wrap, outer, t, ho, h => by
    simp only [Full.typeToken, Option.bind_eq_bind, Option.bind_eq_some_iff, Option.pure_def, Option.some.injEq] at h
    obtain ⟨c, hc, rfl⟩ := h
    obtain rfl := pathTokens_eq hc
    exact ⟨fun _ => .app ho.1 ho.2.1 ho.2.2 .nil, fun _ _ _ _ => .app ho.1 ho.2.1 ho.2.2 .nil⟩

/-- Types that are not wrapped. -/
theorem typeToken_means (A : Sees F k.sc) {l : Str} {r : Region} (hl : LifeMeans k (lifeOf l) r) {ty : Ir.Ty} (ho : OkTy F k.sc ns ty)
    {wrap : Option (List Str)} {outer : Bool} {t : Ty} (hw : wrap = none ∨ outer = false) (h : Full.typeToken ns ty l wrap outer = some t) :
    Means F k t (lty ty r) := (typeToken_both A hl ho h).1 hw

/-- Types that are read or written. -/
theorem typeToken_wrap (A : Sees F k.sc) {l : Str} {r : Region} (hl : LifeMeans k (lifeOf l) r) {ty : Ir.Ty} (ho : OkTy F k.sc ns ty)
    {b : Str} {t : Ty} (hb : F.kind (.butte b) = some (0, 1)) (h : Full.typeToken ns ty l (some [c!"butte", b]) true = some t) :
    Means F k t (lwrap b ty r) := (typeToken_both A hl ho h).2 _ rfl hb rfl

/-- The type of an argument that is there. -/
def larg (ty : Ir.Ty) (r : Region) : LTy :=
  if ty.isUnion then .butteOf c!"WIPOffset" (.butte c!"UnionWIPOffset") else lwrap c!"WIPOffset" ty r

theorem argTy_means (A : Sees F k.sc) {l : Str} {r : Region} (hl : LifeMeans k (lifeOf l) r) {ty : Ir.Ty} (ho : OkTy F k.sc ns ty)
    {t : Ty} (h : Full.argTy ns ty l = some t) : Means F k t (larg ty r) := by
  unfold Full.argTy at h
  unfold larg
  split at h
  · rename_i hu
    cases h
    rw [if_pos hu]
    exact wip_means A (butte_means A rfl .nil)
  · rename_i hu
    rw [if_neg hu]
    exact typeToken_wrap A hl ho rfl h

theorem isPlain_scalar {ty : Ir.Ty} (h : isPlain ty = true) (r s : Region) : lty ty r = lty ty s := by
  cases ty <;> simp_all [isPlain, lty]

theorem lty_regions : ∀ (ty : Ir.Ty) (r : Region), ∀ s ∈ (lty ty r).regions, s = r
  | .builtin _, r, s, h => by simp [lty, LTy.regions] at h
  | .string, r, s, h => by simpa [lty, LTy.regions] using h
  | .array t, r, s, h => by
    simp only [lty, LTy.regions, tysRegions, List.append_nil, List.cons_append, List.nil_append, List.mem_cons] at h
    rcases h with h | h
    · exact h
    · split at h
      · exact lty_regions t r s h
      · exact lty_regions t r s (by simpa [LTy.butteOf, LTy.regions, tysRegions] using h)
  | .table _, r, s, h => by simpa [lty, LTy.regions, tysRegions, LTy.bytes] using h
  | .union .., r, s, h => by simpa [lty, LTy.regions, tysRegions] using h
  | .struct .., r, s, h | .enum .., r, s, h => by simp [lty, LTy.regions, tysRegions] at h

theorem lwrap_regions (b : Str) (ty : Ir.Ty) (r : Region) : ∀ s ∈ (lwrap b ty r).regions, s = r := by
  intro s h
  unfold lwrap at h
  split at h
  · exact lty_regions ty r s h
  · exact lty_regions ty r s (by simpa [LTy.butteOf, LTy.regions, tysRegions] using h)

end

end Butte.Src.Check
