import Verif.Rs.TableAt
import Verif.Rs.Read
import Verif.Gen.Items
import Verif.Gen.WorkableOk
/-
When the generator gets through without a panic.
-/
namespace Butte.Rs
open Ir (QIdent Node Ident itemsOf)
open Gen (formatIdent GField Kind kindOf compileTable modPaths modPathsL)

/-- A word that can start an identifier: not empty, and no digit in front. -/
def Word (s : Str) : Prop := ∃ c r, s = c :: r ∧ c.isDigit = false

theorem Word.format {s : Str} (h : Word s) : formatIdent s = some s := by
  obtain ⟨c, r, rfl, h⟩ := h
  simp [formatIdent, h]

theorem word_iff {s : Str} : (∃ m, formatIdent s = some m) ↔ Word s := by
  refine ⟨?_, fun h => ⟨s, h.format⟩⟩
  rintro ⟨m, h⟩
  unfold formatIdent at h
  split at h
  · cases h
  · split at h
    · cases h
    · rename_i hd
      exact ⟨_, _, rfl, by simpa using hd⟩

/-- A path that `syn` reads. -/
def PathOk (q : QIdent) : Prop := q ≠ [] ∧ c!"try" ∉ q ∧ c!"_" ∉ q

theorem pathTokens_iff {q : QIdent} : (∃ p, pathTokens q = some p) ↔ PathOk q := by
  unfold pathTokens PathOk
  split
  · rename_i h
    simp only [reduceCtorEq, exists_false, false_iff]
    tauto
  · rename_i h
    simp only [Option.some.injEq, exists_eq', true_iff]
    tauto

theorem PathOk.tokens {q : QIdent} (h : PathOk q) : pathTokens q = some q := by
  obtain ⟨p, hp⟩ := pathTokens_iff.mpr h
  unfold pathTokens at hp ⊢
  split at hp
  · cases hp
  · rename_i h; rw [if_neg h]

theorem pathTokens_ok {q : QIdent} {p : List Str} (h : pathTokens q = some p) : PathOk q ∧ p = q := by
  have := pathTokens_iff.mp ⟨p, h⟩
  rw [this.tokens] at h
  exact ⟨this, by simpa using h.symm⟩

/-- All paths in a type, seen from `ns`, are read. -/
def TyOk (ns : Option QIdent) (ty : Ir.Ty) : Prop := ∀ q ∈ Gen.tyPaths ty, PathOk (QIdent.relative q ns)

theorem typeToken_iff {ns : Option QIdent} : ∀ {ty : Ir.Ty} {w : Option (List Str)} {o : Bool},
    (∃ t, typeToken ns ty w o = some t) ↔ TyOk ns ty
  | .builtin b, w, o => by simp [typeToken, TyOk, Gen.tyPaths]
  | .string, w, o => by simp [typeToken, TyOk, Gen.tyPaths]
  | .array t, w, o => by
    have := typeToken_iff (ns := ns) (ty := t) (w := some fwdPath) (o := true)
    unfold TyOk at this ⊢
    rw [Gen.tyPaths, ← this]
    simp only [typeToken]
    cases typeToken ns t (some fwdPath) true <;> simp
  | .table q, w, o | .struct q _, w, o | .enum q _ _, w, o | .union q _ _, w, o => by
    simp only [typeToken, TyOk, Gen.tyPaths, List.mem_singleton, forall_eq, ← pathTokens_iff]
    cases pathTokens (QIdent.relative q ns) <;> simp

/-- A number can be written with suffix `n`: no infinity and no NaN, also not as an `f32`. -/
def NumberOk (s : Ast.Scalar) (n : Str) : Prop :=
  match s with
  | .float x => f64Finite x = true ∧ (n = c!"f32" → f64ToF32 x % 2 ^ 31 < 255 * 2 ^ 23)
  | _ => True

theorem fmtLit_iff {s : Ast.Scalar} {t : Ty} :
    (∃ l, fmtLit s t = some l) ↔ (∃ b, s = .boolean b) ∨ ∃ n, t = .path [n] ∧ NumberOk s n := by
  have suf : ∀ {n}, suffix t = some n ↔ t = .path [n] := by
    intro n
    unfold suffix
    split <;> simp_all
  cases s with
  | boolean b => simp [fmtLit]
  | integer i =>
    simp only [fmtLit, NumberOk, ← suf]
    cases suffix t <;> simp
  | float x =>
    simp only [fmtLit, NumberOk, ← suf]
    cases suffix t with
    | none => simp
    | some n =>
      simp only [Option.bind_eq_bind, Option.bind_some, Option.ite_none_right_eq_some, Option.some.injEq, reduceCtorEq,
        exists_false, false_or, exists_eq_left', Bool.and_eq_true, Bool.or_eq_true, bne_iff_ne, ne_eq, decide_eq_true_eq]
      simp only [exists_and_left, exists_eq', and_true]
      refine ⟨fun h => ⟨h.1, fun e => h.2.resolve_left fun h => h e⟩, fun h => ⟨h.1, ?_⟩⟩
      by_cases e : n = c!"f32"
      · exact .inr (h.2 e)
      · exact .inl e

/-- A number can be written as a value of a type, seen from `ns`, and the type is one that has such values: it is
primitive, or its name is a single word. -/
def NumberFits (ns : Option QIdent) (s : Ast.Scalar) : Ir.Ty → Prop
  | .builtin b => NumberOk s (builtinName b)
  | .struct q _ | .enum q _ _ => ∃ a b, q = [a] ∧ QIdent.relative q ns = [b] ∧ NumberOk s a ∧ NumberOk s b
  | _ => False

/-- The default of a field can be written; `dflt`: the arguments of the table implement `Default`. -/
def DefaultOk (ns : Option QIdent) (dflt : Prop) (ty : Ir.Ty) : Option Ast.DefaultValue → Prop
  | none => True
  | some (.ident i) => Word i ∧ (dflt → ty.isScalar = true → ty.isEnum = true)
  | some (.scalar s) => ((∃ b, s = .boolean b) ∨ TyOk none ty ∧ NumberFits ns s ty) ∧ (dflt → ty.isEnum = false)

/-- The members of a union can be written. -/
def MembersOk (ns : Option QIdent) (vs : List Ir.UnionVariant) : Prop := ∀ v ∈ vs, Word v.ident ∧ TyOk ns v.ty

/-- A field can be written. -/
def FieldOk (ns : Option QIdent) (dflt : Prop) (f : Ir.Field) : Prop :=
  Word f.ident ∧ Word (Heck.snake f.ident) ∧ TyOk ns f.ty ∧ DefaultOk ns dflt f.ty f.default ∧
    ∀ q e vs, f.ty = .union q e vs → PathOk (QIdent.relative e ns) ∧ MembersOk ns vs

/-- What the generator gets through, for one node that is no module. -/
def NodeOk (gm : Mode) : Node → Prop
  | .table t => Word (QIdent.simple t.ident) ∧
    (∀ f ∈ t.fields, FieldOk (QIdent.namespace t.ident) (∀ f ∈ t.fields, f.required = true → f.ty.isScalar = true) f) ∧
    (gm = .release ∨ t.fields.length ≤ 32766)
  | .struct _ => False
  | .enum e => Word (QIdent.simple e.ident) ∧ ∀ v ∈ e.variants, Word v.ident
  | .union u => Word (QIdent.simple u.ident) ∧ PathOk (QIdent.relative u.enumIdent (QIdent.namespace u.ident)) ∧
    MembersOk (QIdent.namespace u.ident) u.variants
  | .rpc _ | .namespace .. => True

theorem mapM_iff {α β : Type} {f : α → Option β} {l : List α} :
    (∃ r, l.mapM f = some r) ↔ ∀ x ∈ l, ∃ y, f x = some y := by
  induction l with
  | nil => simp
  | cons a l ih =>
    simp only [List.mapM_cons, List.forall_mem_cons, ← ih]
    cases f a <;> cases l.mapM f <;> simp

theorem isSome_bind {α β : Type} {x : Option α} {f : α → Option β} :
    (∃ r, (x >>= f) = some r) ↔ ∃ a, x = some a ∧ ∃ r, f a = some r := by
  cases x <;> simp

theorem argTy_iff {ns : Option QIdent} {ty : Ir.Ty} (h : TyOk ns ty) : ∃ t, argTy ns ty = some t := by
  unfold argTy
  split
  · exact ⟨_, rfl⟩
  · exact typeToken_iff.mpr h

/-- Wrapping leaves the type of a scalar alone. -/
theorem typeToken_scalar {ns : Option QIdent} {ty : Ir.Ty} {w w' : Option (List Str)} {o o' : Bool}
    (h : ty.isScalar = true) : typeToken ns ty w o = typeToken ns ty w' o' := by
  cases ty <;> first | rfl | (simp [Ir.Ty.isScalar] at h)

theorem scalar_not_union {ty : Ir.Ty} (h : ty.isScalar = true) : ty.isUnion = false := by
  cases ty <;> first | rfl | (simp [Ir.Ty.isScalar] at h)

/-- The literals of a default, with and without the namespace. -/
theorem numberFits_iff {ns : Option QIdent} {s : Ast.Scalar} {ty : Ir.Ty} (h : TyOk ns ty) :
    ((∃ t, typeToken none ty none false = some t ∧ ∃ l, fmtLit s t = some l) ∧
      ∃ w, typeToken ns ty (some fwdPath) true = some w ∧ ∃ l, fmtLit s w = some l) ↔
    TyOk none ty ∧ ((∃ b, s = .boolean b) ∨ NumberFits ns s ty) := by
  by_cases hb : ∃ b, s = .boolean b
  · simp only [fmtLit_iff, hb, true_or, and_true]
    rw [typeToken_iff, typeToken_iff]
    tauto
  · have no : ∀ {t : Ty}, (∃ l, fmtLit s t = some l) ↔ ∃ n, t = .path [n] ∧ NumberOk s n := by
      intro t; rw [fmtLit_iff]; tauto
    simp only [no, hb, false_or]
    have path : ∀ q : QIdent, TyOk ns (.table q) → ∀ p,
        ((∃ t, (pathTokens (QIdent.relative q p) >>= fun x => some (Ty.path x)) = some t ∧ ∃ n, t = .path [n] ∧ NumberOk s n) ↔
          PathOk (QIdent.relative q p) ∧ ∃ n, QIdent.relative q p = [n] ∧ NumberOk s n) := by
      intro q _ p
      constructor
      · rintro ⟨t, h1, n, rfl, h2⟩
        simp only [Option.bind_eq_bind, Option.bind_eq_some_iff] at h1
        obtain ⟨x, hx, h1⟩ := h1
        cases h1
        obtain ⟨h3, h4⟩ := pathTokens_ok hx
        exact ⟨h3, n, h4.symm, h2⟩
      · rintro ⟨h1, n, h2, h3⟩
        rw [h1.tokens, h2]
        exact ⟨_, rfl, n, rfl, h3⟩
    have user : ∀ q : QIdent, TyOk ns (.table q) →
        (((PathOk (QIdent.relative q none) ∧ ∃ n, QIdent.relative q none = [n] ∧ NumberOk s n) ∧
          (PathOk (QIdent.relative q ns) ∧ ∃ n, QIdent.relative q ns = [n] ∧ NumberOk s n)) ↔
        TyOk none (.table q) ∧ ∃ a b, q = [a] ∧ QIdent.relative q ns = [b] ∧ NumberOk s a ∧ NumberOk s b) := by
      intro q hq
      have e : QIdent.relative q none = q := rfl
      simp only [TyOk, Gen.tyPaths, List.mem_singleton, forall_eq, e] at hq ⊢
      constructor
      · rintro ⟨⟨h1, a, h2, h3⟩, h4, b, h5, h6⟩
        exact ⟨h1, a, b, h2, h5, h3, h6⟩
      · rintro ⟨h1, a, b, h2, h3, h4, h5⟩
        exact ⟨⟨h1, a, h2, h4⟩, hq, b, h3, h5⟩
    cases ty with
    | builtin b => simp [typeToken, NumberFits, TyOk, Gen.tyPaths]
    | string => simp [typeToken, NumberFits, wrapped, strTy]
    | array t =>
      simp only [typeToken, NumberFits, and_false, iff_false]
      rintro ⟨-, w, h, n, rfl, -⟩
      simp [Option.bind_eq_some_iff, wrapped] at h
    | table q =>
      simp only [typeToken, NumberFits, and_false, iff_false]
      rintro ⟨-, w, h, n, rfl, -⟩
      simp [Option.bind_eq_some_iff, wrapped] at h
    | union q e vs =>
      simp only [typeToken, NumberFits, and_false, iff_false]
      rintro ⟨-, w, h, n, rfl, -⟩
      simp [Option.bind_eq_some_iff, wrapped] at h
    | struct q fs =>
      have := user q h
      rw [← path q h none, ← path q h ns] at this
      exact this
    | enum q vs b =>
      have := user q h
      rw [← path q h none, ← path q h ns] at this
      exact this

theorem unionBody_iff {n : Str} {ns : Option QIdent} {f : Ir.Field} {q e : QIdent} {vs : List Ir.UnionVariant}
    (hf : Word (Heck.snake f.ident)) (hq : PathOk (QIdent.relative q ns)) :
    (∃ a, unionBody n ns f (Heck.snake f.ident) q e vs = some a) ↔ PathOk (QIdent.relative e ns) ∧ MembersOk ns vs := by
  have tag : Word (Heck.snake f.ident ++ c!"_type") := by
    obtain ⟨c, r, e, h⟩ := hf
    exact ⟨c, r ++ c!"_type", by rw [e]; rfl, h⟩
  unfold unionBody
  simp only [hq.tokens, tag.format, Option.bind_eq_bind, Option.bind_some]
  rw [← Option.bind_eq_bind, isSome_bind]
  constructor
  · rintro ⟨e', he, h⟩
    refine ⟨(pathTokens_ok he).1, ?_⟩
    rw [← Option.bind_eq_bind, isSome_bind] at h
    obtain ⟨arms, ha, -⟩ := h
    intro v hv
    obtain ⟨y, hy⟩ := mapM_iff.mp ⟨arms, ha⟩ v hv
    split at hy
    all_goals
      simp only [requiredArm, optionalArm, Option.bind_eq_bind, Option.bind_eq_some_iff] at hy
      obtain ⟨w, hw, i, hi, -⟩ := hy
      exact ⟨word_iff.mp ⟨i, hi⟩, typeToken_iff.mp ⟨w, hw⟩⟩
  · rintro ⟨he, hm⟩
    refine ⟨_, he.tokens, ?_⟩
    rw [← Option.bind_eq_bind, isSome_bind]
    obtain ⟨arms, ha⟩ := mapM_iff (f := fun v => if f.required then requiredArm n ns f (Heck.snake f.ident)
      (QIdent.relative q ns) (QIdent.relative e ns) v else optionalArm n ns f (QIdent.relative q ns)
      (QIdent.relative e ns) v) (l := vs) |>.mpr (by
        intro v hv
        obtain ⟨h1, h2⟩ := hm v hv
        obtain ⟨w, hw⟩ := typeToken_iff (w := some fwdPath) (o := true) |>.mpr h2
        split
        · simp [requiredArm, hw, h1.format]
        · simp [optionalArm, hw, h1.format])
    exact ⟨arms, ha, _, rfl⟩

/-- All that is emitted for a field, but for its slot. -/
theorem field_iff {n : Str} {ns : Option QIdent} {dflt : Prop} {f : Ir.Field} :
    (Word f.ident ∧ (∃ a, argField ns f = some a) ∧ (dflt → ∃ a, argDefault ns f = some a) ∧
      (∃ a, addMethod n ns f = some a) ∧ ∃ a, accessor n ns f = some a) ↔ FieldOk ns dflt f := by
  constructor
  · rintro ⟨h1, ⟨a, ha⟩, hd, ⟨b, hb⟩, ⟨c, hc⟩⟩
    simp only [accessor, Option.bind_eq_bind, Option.bind_eq_some_iff] at hc
    obtain ⟨sn, hsn, ret, -, w, hw, dv, hdv, body, hbody, -⟩ := hc
    have hsn' := Gen.formatIdent_eq hsn
    subst hsn'
    have hty : TyOk ns f.ty := typeToken_iff.mp ⟨w, hw⟩
    have hW : Word (Heck.snake f.ident) := word_iff.mp ⟨_, hsn⟩
    refine ⟨h1, hW, hty, ?_, ?_⟩
    · cases he : f.default with
      | none => trivial
      | some d =>
        cases d with
        | ident i =>
          rw [he] at hdv
          simp only [getDefault, defaultValue, Option.map_eq_some_iff, Option.bind_eq_bind, Option.bind_eq_some_iff] at hdv
          obtain ⟨_, ⟨v, hv, -⟩, -⟩ := hdv
          refine ⟨word_iff.mp ⟨v, hv⟩, fun hd' hs => ?_⟩
          obtain ⟨a, ha⟩ := hd hd'
          simp only [argDefault, argDefaultExpr, he, hs, Option.bind_eq_bind, Option.bind_eq_some_iff] at ha
          obtain ⟨_, _, x, hx, -⟩ := ha
          cases hE : f.ty.isEnum
          · simp [hE] at hx
          · rfl
        | scalar s =>
          rw [he] at hdv
          simp only [getDefault, defaultValue, Option.map_eq_some_iff, Option.bind_eq_bind, Option.bind_eq_some_iff] at hdv
          obtain ⟨_, ⟨l, hl, -⟩, -⟩ := hdv
          have g : (∃ b, s = .boolean b) ∨ TyOk none f.ty ∧ NumberFits ns s f.ty := by
            by_cases hb : ∃ b, s = .boolean b
            · exact .inl hb
            · simp only [argField, he, Option.bind_eq_bind, Option.bind_eq_some_iff] at ha
              obtain ⟨_, -, _, hdd, -⟩ := ha
              have hdd' : ∃ t, typeToken none f.ty none false = some t ∧ ∃ l, fmtLit s t = some l := by
                cases s with
                | boolean b => exact absurd ⟨b, rfl⟩ hb
                | integer i =>
                  simp only [defaultDoc, Option.ite_none_left_eq_some, Option.bind_eq_bind, Option.bind_eq_some_iff] at hdd
                  obtain ⟨-, t, ht, l', hl', -⟩ := hdd
                  exact ⟨t, ht, l', hl'⟩
                | float i =>
                  simp only [defaultDoc, Option.ite_none_left_eq_some, Option.bind_eq_bind, Option.bind_eq_some_iff] at hdd
                  obtain ⟨-, t, ht, l', hl', -⟩ := hdd
                  exact ⟨t, ht, l', hl'⟩
              obtain ⟨g1, g2⟩ := numberFits_iff hty |>.mp ⟨hdd', w, hw, l, hl⟩
              exact .inr ⟨g1, g2.resolve_left hb⟩
          refine ⟨g, fun hd' => ?_⟩
          obtain ⟨a, ha⟩ := hd hd'
          cases hE : f.ty.isEnum
          · rfl
          · have hs : f.ty.isScalar = true := by
              revert hE; cases f.ty <;> simp [Ir.Ty.isEnum, Ir.Ty.isScalar]
            simp [argDefault, argDefaultExpr, he, hs, hE, Option.bind_eq_some_iff] at ha
    · intro q e vs hu
      rw [accessorBody, hu] at hbody
      refine (unionBody_iff hW (hty q (by rw [hu]; simp [Gen.tyPaths]))).mp ⟨body, hbody⟩
  · rintro ⟨h1, hW, hty, hD, hu⟩
    obtain ⟨w, hw⟩ := typeToken_iff (w := some fwdPath) (o := true) |>.mpr hty
    obtain ⟨ret, hret⟩ := typeToken_iff (w := some fwdPath) (o := false) |>.mpr hty
    obtain ⟨t0, ht0⟩ := typeToken_iff (w := none) (o := false) |>.mpr hty
    obtain ⟨ta, hta⟩ := argTy_iff hty
    have scal : f.ty.isScalar = true → t0 = w ∧ ta = w := by
      intro hs
      have e1 := typeToken_scalar (ns := ns) (w := none) (o := false) (w' := some fwdPath) (o' := true) hs
      have e2 := typeToken_scalar (ns := ns) (w := some wipPath) (o := true) (w' := some fwdPath) (o' := true) hs
      rw [argTy, scalar_not_union hs, e2, hw] at hta
      rw [ht0, hw] at e1
      simp only [Bool.false_eq_true, if_false, Option.some.injEq] at hta e1
      exact ⟨e1, hta.symm⟩
    -- the default, as far as it goes
    have hdoc : defaultDoc f.ty f.default = some () ∧ (∃ dv, getDefault w f.default = some dv) ∧
        (f.ty.isScalar = true → ∀ d, f.default = some d → ∃ v, defaultValue w d = some v) ∧
        (dflt → ∃ v, argDefaultExpr f t0 = some v) := by
      cases he : f.default with
      | none =>
        refine ⟨rfl, ⟨_, rfl⟩, fun _ d h => (by cases h), fun _ => ?_⟩
        rw [argDefaultExpr, he]
        split <;> exact ⟨_, rfl⟩
      | some d =>
        rw [he] at hD
        cases d with
        | ident i =>
          obtain ⟨hi, hE⟩ := hD
          have hv : defaultValue w (.ident i) = some (.assoc w i) := by simp [defaultValue, hi.format]
          refine ⟨rfl, ⟨.some (.assoc w i), by simp [getDefault, hv]⟩, ?_, ?_⟩
          · rintro _ d h
            cases h
            exact ⟨_, hv⟩
          · intro hd
            rw [argDefaultExpr, he]
            by_cases hs : f.ty.isScalar = true
            · simp [hs, hE hd hs, hi.format]
            · simp [hs]
        | scalar s =>
          obtain ⟨h2, hE⟩ := hD
          have hdd : defaultDoc f.ty (some (.scalar s)) = some () ∧ ∃ l', fmtLit s w = some l' := by
            rcases h2 with ⟨b, rfl⟩ | ⟨h1, h2⟩
            · exact ⟨rfl, _, rfl⟩
            · obtain ⟨⟨t, ht, l, hl⟩, w', hw', l', hl'⟩ := numberFits_iff hty |>.mpr ⟨h1, .inr h2⟩
              rw [hw] at hw'
              cases hw'
              refine ⟨?_, l', hl'⟩
              have hnu : f.ty.isUnion = false := by
                revert h2
                cases f.ty <;> simp [NumberFits, Ir.Ty.isUnion]
              cases s <;> simp [defaultDoc, ht, hl, hnu]
          obtain ⟨hdd, l', hl'⟩ := hdd
          have hv : defaultValue w (.scalar s) = some (.lit l') := by simp [defaultValue, hl']
          refine ⟨hdd, ⟨.some (.lit l'), by simp [getDefault, hv]⟩, ?_, ?_⟩
          · rintro _ d h
            cases h
            exact ⟨_, hv⟩
          · intro hd
            rw [argDefaultExpr, he]
            by_cases hs : f.ty.isScalar = true
            · simp [hs, hE hd, (scal hs).1, hl']
            · simp [hs]
    obtain ⟨d1, ⟨dv, d2⟩, d3, d4⟩ := hdoc
    refine ⟨h1, ?_, ?_, ?_, ?_⟩
    · exact ⟨_, by simp only [argField, hta, d1, Option.bind_eq_bind, Option.bind_some, Option.pure_def]; rfl⟩
    · intro hd
      obtain ⟨v, hv⟩ := d4 hd
      exact ⟨_, by simp only [argDefault, ht0, hv, Option.bind_eq_bind, Option.bind_some, Option.pure_def]; rfl⟩
    · have : ∃ b, addBody n f ta = some b := by
        unfold addBody
        by_cases hs : f.ty.isScalar = true
        · rw [(scal hs).2]
          cases he : f.default with
          | none => simp [hs]
          | some d =>
            obtain ⟨v, hv⟩ := d3 hs d he
            simp [hs, hv]
        · simp [hs]
      obtain ⟨b, hb⟩ := this
      exact ⟨_, by simp only [addMethod, hta, hb, Option.bind_eq_bind, Option.bind_some, Option.pure_def]; rfl⟩
    · have : ∃ b, accessorBody n ns f (Heck.snake f.ident) w dv = some b := by
        unfold accessorBody
        split
        · rename_i q e vs he
          exact (unionBody_iff hW (hty q (by rw [he]; simp [Gen.tyPaths]))).mpr (hu q e vs he)
        · exact ⟨_, rfl⟩
      obtain ⟨b, hb⟩ := this
      exact ⟨_, by
        simp only [accessor, hW.format, hret, hw, d2, hb, Option.bind_eq_bind, Option.bind_some, Option.pure_def]; rfl⟩

theorem canDefault_iff {fs : List Ir.Field} : canDefault fs = true ↔ ∀ f ∈ fs, f.required = true → f.ty.isScalar = true := by
  simp only [canDefault, List.all_eq_true, Bool.or_eq_true, Bool.not_eq_true']
  refine forall_congr' fun f => forall_congr' fun _ => ?_
  cases f.required <;> simp

theorem emitTable_iff {gm : Mode} {t : Ir.Table} : (∃ l, emitTable gm t = some l) ↔ NodeOk gm (.table t) := by
  have slots : (∃ l, (List.zipIdx t.fields).mapM (fun x => slotConst gm x.2 x.1) = some l) ↔
      gm = .release ∨ t.fields.length ≤ 32766 := by
    rw [mapM_iff, ← Gen.slotOf_iff]
    constructor
    · intro h i hi
      obtain ⟨y, hy⟩ := h (t.fields[i], i) (by
        rw [List.mem_zipIdx_iff_getElem?]; simp [hi])
      simp only [slotConst, Option.bind_eq_bind, Option.bind_eq_some_iff] at hy
      obtain ⟨s, hs, -⟩ := hy
      exact ⟨s, hs⟩
    · rintro h ⟨f, i⟩ hx
      rw [List.mem_zipIdx_iff_getElem?] at hx
      simp only at hx
      obtain ⟨s, hs⟩ := h i (List.getElem?_eq_some_iff.mp hx).1
      exact ⟨_, by simp only [slotConst, hs]; rfl⟩
  have dflts : ∀ n ns, (∃ l, defaultItems n ns t.fields = some l) ↔
      (canDefault t.fields = true → ∀ f ∈ t.fields, ∃ a, argDefault ns f = some a) := by
    intro n ns
    unfold defaultItems
    split
    · rename_i h
      simp only [h, forall_const, ← mapM_iff]
      simp
    · rename_i h
      simp [h]
  unfold emitTable NodeOk
  simp only [← slots, ← canDefault_iff, ← field_iff (n := QIdent.simple t.ident)]
  constructor
  · rintro ⟨l, h⟩
    simp only [Option.bind_eq_bind, Option.bind_eq_some_iff] at h
    obtain ⟨n, hn, ids, hids, args, hargs, ds, hds, adds, hadds, cs, hcs, accs, haccs, -⟩ := h
    have := Gen.formatIdent_eq hn
    subst this
    refine ⟨word_iff.mp ⟨_, hn⟩, fun f hf => ⟨word_iff.mp (mapM_iff.mp ⟨_, hids⟩ f hf), mapM_iff.mp ⟨_, hargs⟩ f hf,
      fun hd => ?_, mapM_iff.mp ⟨_, hadds⟩ f hf, mapM_iff.mp ⟨_, haccs⟩ f hf⟩, cs, hcs⟩
    exact (dflts _ _).mp ⟨ds, hds⟩ hd f hf
  · rintro ⟨hn, hf, cs, hcs⟩
    obtain ⟨ids, hids⟩ := mapM_iff.mpr fun f h => word_iff.mpr (hf f h).1
    obtain ⟨args, hargs⟩ := mapM_iff.mpr fun f h => (hf f h).2.1
    obtain ⟨ds, hds⟩ := (dflts (QIdent.simple t.ident) _).mpr fun hd f h => (hf f h).2.2.1 hd
    obtain ⟨adds, hadds⟩ := mapM_iff.mpr fun f h => (hf f h).2.2.2.1
    obtain ⟨accs, haccs⟩ := mapM_iff.mpr fun f h => (hf f h).2.2.2.2
    exact ⟨_, by
      simp only [hn.format, hids, hargs, hds, hadds, hcs, haccs, Option.bind_eq_bind, Option.bind_some, Option.pure_def]; rfl⟩

theorem emitEnum_iff {gm : Mode} {e : Ir.Enum} : (∃ l, emitEnum e = some l) ↔ NodeOk gm (.enum e) := by
  have vars : (∃ l, (List.zipIdx e.variants).mapM (variantLit (baseName e.base)) = some l) ↔
      ∀ v ∈ e.variants, Word v.ident := by
    rw [mapM_iff]
    constructor
    · intro h v hv
      obtain ⟨i, hi, rfl⟩ := List.mem_iff_getElem.mp hv
      obtain ⟨y, hy⟩ := h (e.variants[i], i) (by rw [List.mem_zipIdx_iff_getElem?]; simp [hi])
      simp only [variantLit, Option.bind_eq_bind, Option.bind_eq_some_iff] at hy
      obtain ⟨s, hs, -⟩ := hy
      exact word_iff.mp ⟨s, hs⟩
    · rintro h ⟨v, i⟩ hx
      rw [List.mem_zipIdx_iff_getElem?] at hx
      have := h v (List.mem_of_getElem? hx)
      exact ⟨_, by simp only [variantLit, this.format]; rfl⟩
  unfold emitEnum NodeOk
  simp only [← vars]
  constructor
  · rintro ⟨l, h⟩
    simp only [Option.bind_eq_bind, Option.bind_eq_some_iff] at h
    obtain ⟨n, hn, vs, hvs, -⟩ := h
    exact ⟨word_iff.mp ⟨_, hn⟩, vs, hvs⟩
  · rintro ⟨hn, vs, hvs⟩
    exact ⟨_, by simp only [hn.format, hvs, Option.bind_eq_bind, Option.bind_some, Option.pure_def]; rfl⟩

theorem emitUnion_iff {gm : Mode} {u : Ir.Union} : (∃ l, emitUnion u = some l) ↔ NodeOk gm (.union u) := by
  have vars : ∀ ns, (∃ l, u.variants.mapM (unionVariant ns) = some l) ↔ MembersOk ns u.variants := by
    intro ns
    rw [mapM_iff]
    refine forall_congr' fun v => forall_congr' fun _ => ?_
    constructor
    · rintro ⟨y, hy⟩
      simp only [unionVariant, Option.bind_eq_bind, Option.bind_eq_some_iff] at hy
      obtain ⟨t, ht, s, hs, -⟩ := hy
      exact ⟨word_iff.mp ⟨s, hs⟩, typeToken_iff.mp ⟨t, ht⟩⟩
    · rintro ⟨h1, h2⟩
      obtain ⟨t, ht⟩ := typeToken_iff (w := none) (o := false) |>.mpr h2
      exact ⟨_, by simp only [unionVariant, h1.format, ht]; rfl⟩
  unfold emitUnion NodeOk
  simp only [← vars]
  constructor
  · rintro ⟨l, h⟩
    simp only [Option.bind_eq_bind, Option.bind_eq_some_iff] at h
    obtain ⟨n, hn, e, he, vs, hvs, -⟩ := h
    exact ⟨word_iff.mp ⟨_, hn⟩, (pathTokens_ok he).1, vs, hvs⟩
  · rintro ⟨hn, he, vs, hvs⟩
    exact ⟨_, by simp only [hn.format, he.tokens, hvs, Option.bind_eq_bind, Option.bind_some, Option.pure_def]; rfl⟩

mutual
theorem emitNode_iff (gm : Mode) (P : List Ident) : ∀ (path : List Str) (n : Node), (∃ l, emitNode gm path n = some l) ↔
    (∀ x ∈ n.leaves P, NodeOk gm x.2) ∧ ∀ p ∈ modPaths P n, Word (Heck.snake (QIdent.simple p))
  | path, .table t => by
    simp only [emitNode, Ir.Node.leaves, modPaths, List.mem_singleton, forall_eq, ← emitTable_iff]
    cases emitTable gm t <;> simp
  | path, .enum e => by
    simp only [emitNode, Ir.Node.leaves, modPaths, List.mem_singleton, forall_eq, ← emitEnum_iff]
    cases emitEnum e <;> simp
  | path, .union u => by
    simp only [emitNode, Ir.Node.leaves, modPaths, List.mem_singleton, forall_eq, ← emitUnion_iff]
    cases emitUnion u <;> simp
  | path, .struct s => by simp [emitNode, Ir.Node.leaves, modPaths, NodeOk]
  | path, .rpc s => by simp [emitNode, Ir.Node.leaves, modPaths, NodeOk]
  | path, .namespace i ns => by
    have e : QIdent.simple (P ++ [QIdent.simple i]) = QIdent.simple i := by simp [QIdent.simple]
    simp only [emitNode, Ir.Node.leaves, modPaths, List.forall_mem_cons, e]
    constructor
    · rintro ⟨l, h⟩
      simp only [Option.bind_eq_bind, Option.bind_eq_some_iff] at h
      obtain ⟨m, hm, l', hl, -⟩ := h
      obtain ⟨h1, h2⟩ := (emitNodes_iff gm (P ++ [QIdent.simple i]) _ ns).mp ⟨l', hl⟩
      exact ⟨h1, word_iff.mp ⟨_, hm⟩, h2⟩
    · rintro ⟨h1, hm, h2⟩
      obtain ⟨l, hl⟩ := (emitNodes_iff gm (P ++ [QIdent.simple i]) (path ++ [Heck.snake (QIdent.simple i)]) ns).mpr ⟨h1, h2⟩
      exact ⟨_, by simp only [hm.format, hl, Option.bind_eq_bind, Option.bind_some, Option.pure_def]; rfl⟩
theorem emitNodes_iff (gm : Mode) (P : List Ident) : ∀ (path : List Str) (ns : List Node),
    (∃ l, emitNodes gm path ns = some l) ↔
    (∀ x ∈ Node.leavesL P ns, NodeOk gm x.2) ∧ ∀ p ∈ modPathsL P ns, Word (Heck.snake (QIdent.simple p))
  | path, [] => by simp [emitNodes, Ir.Node.leavesL, modPathsL]
  | path, n :: ns => by
    have h1 := emitNode_iff gm P path n
    have h2 := emitNodes_iff gm P path ns
    have : (∃ l, emitNodes gm path (n :: ns) = some l) ↔
        (∃ l, emitNode gm path n = some l) ∧ ∃ l, emitNodes gm path ns = some l := by
      simp only [emitNodes]
      cases emitNode gm path n <;> cases emitNodes gm path ns <;> simp
    rw [this, h1, h2]
    simp only [Ir.Node.leavesL, modPathsL, List.mem_append, or_imp, forall_and]
    tauto
end

end Butte.Rs
