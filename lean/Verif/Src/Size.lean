import Verif.Src.Quote
import Verif.Rs.Locate
import Verif.Ir.Arrange
/-
How many tokens each `quote!` of the generator gives.
-/
namespace Butte.Src
open Ir (QIdent)
open Gen (formatIdent)
open Rs (pathTokens Lit)

/-! ### Lists -/

/-- The number of tokens in all members. -/
def total (xs : List Toks) : Nat := (xs.map List.length).sum

theorem flatten_total (xs : List Toks) : xs.flatten.length = total xs := by
  induction xs with
  | nil => rfl
  | cons x xs ih => simp only [total, List.flatten_cons, List.length_append, List.map_cons, List.sum_cons] at *; omega

theorem sepCommas_total : ∀ xs : List Toks, (sepCommas xs).length ≤ total xs + xs.length
  | [] => by simp [sepCommas, total]
  | [x] => by simp [sepCommas, total]
  | x :: y :: xs => by
    have := sepCommas_total (y :: xs)
    simp only [sepCommas, total, List.length_append, List.length_cons, List.map_cons, List.sum_cons] at *
    omega

theorem endCommas_total (xs : List Toks) : (endCommas xs).length = total xs + xs.length := by
  unfold endCommas total
  induction xs with
  | nil => rfl
  | cons x xs ih => simp only [List.flatMap_cons, List.length_append, List.map_cons, List.sum_cons, List.length_cons, List.length_nil] at *; omega

theorem mapM_total {α : Type} {f : α → Option Toks} {l : List α} {r : List Toks} (h : l.mapM f = some r) {B : α → Nat}
    (hb : ∀ a ∈ l, ∀ b, f a = some b → b.length ≤ B a) : total r ≤ (l.map B).sum ∧ r.length = l.length := by
  have h' := Rs.mapM_forall₂ h
  clear h
  induction h' with
  | nil => simp [total]
  | cons h _ ih =>
    have h1 := hb _ (by simp) _ h
    have := ih (fun a ha => hb a (by simp [ha]))
    simp only [total, List.map_cons, List.sum_cons, List.length_cons] at *
    omega

theorem map_total {α : Type} {f : α → Toks} {l : List α} {B : α → Nat} (hb : ∀ a ∈ l, (f a).length ≤ B a) :
    total (l.map f) ≤ (l.map B).sum := by
  induction l with
  | nil => simp [total]
  | cons a l ih =>
    have h1 := hb a (by simp)
    have := ih (fun a ha => hb a (by simp [ha]))
    simp only [total, List.map_cons, List.sum_cons] at *
    omega

namespace Quote

/-! ### Types and values -/

/-- The number of modules of a namespace. -/
def nsLen (ns : Option QIdent) : Nat := (ns.getD []).length

/-- The number of array brackets and parts of the name of a type. -/
def parts : Ir.Ty → Nat
  | .builtin _ | .string => 1
  | .array t => parts t + 1
  | .table q | .struct q _ | .enum q _ _ | .union q _ _ => q.length + 1

theorem relative_length (q : QIdent) (ns : Option QIdent) : (QIdent.relative q ns).length ≤ q.length + nsLen ns := by
  cases ns with
  | none => simp [QIdent.relative]
  | some ns => simp [QIdent.relative, nsLen]; omega

theorem printPath_length : ∀ q : List Str, (printPath q).length ≤ 2 * q.length
  | [] => by simp [printPath]
  | [s] => by simp [printPath]
  | s :: t :: p => by
    have := printPath_length (t :: p)
    simp only [printPath, List.length_cons] at *; omega

theorem path_length {q : QIdent} {ns : Option QIdent} {t : Toks} (h : path (QIdent.relative q ns) = some t) :
    t.length ≤ 2 * (q.length + nsLen ns) := by
  simp only [path, pathTokens, Option.map_eq_some_iff] at h
  obtain ⟨p, h, rfl⟩ := h
  split at h
  · cases h
  · cases h
    exact Nat.le_trans (printPath_length _) (Nat.mul_le_mul_left 2 (relative_length q ns))

theorem builtin_length (b : Ast.Builtin) : (builtin b).length = 1 := by cases b <;> rfl

theorem refLifetime_length (l : Toks) : (refLifetime l).length ≤ 1 := by
  unfold refLifetime
  split
  · split <;> simp
  · simp

theorem typeToken_length {ns : Option QIdent} (ty : Ir.Ty) {life wrap : Toks} {outer : Bool} {t : Toks} (hl : life.length ≤ 1)
    (hw : wrap.length ≤ 3) (h : typeToken ns ty life wrap outer = some t) : t.length ≤ 13 * parts ty + 2 * nsLen ns := by
  have hr := refLifetime_length life
  match ty with
  | .builtin b =>
    simp only [typeToken, Option.some.injEq] at h
    subst h
    rw [builtin_length]; simp only [parts]; omega
  | .string =>
    simp only [typeToken, Option.some.injEq] at h
    subst h
    split <;> simp only [ToTokens.toks, id, List.length_append, List.length_cons, List.length_nil, parts] <;> omega
  | .array ty =>
    simp only [typeToken, Option.bind_eq_bind, Option.bind_eq_some_iff, Option.pure_def, Option.some.injEq] at h
    obtain ⟨c, hc, rfl⟩ := h
    have := typeToken_length ty hl (by simp) hc
    split <;> simp only [ToTokens.toks, id, List.length_append, List.length_cons, List.length_nil, parts] <;> omega
  | .table q =>
    simp only [typeToken, Option.bind_eq_bind, Option.bind_eq_some_iff, Option.pure_def, Option.some.injEq] at h
    obtain ⟨c, hc, rfl⟩ := h
    have := path_length hc
    split <;> simp only [ToTokens.toks, id, List.length_append, List.length_cons, List.length_nil, parts] <;> omega
  | .union q e vs =>
    simp only [typeToken, Option.bind_eq_bind, Option.bind_eq_some_iff, Option.pure_def, Option.some.injEq] at h
    obtain ⟨c, hc, rfl⟩ := h
    have := path_length hc
    split <;> simp only [ToTokens.toks, id, List.length_append, List.length_cons, List.length_nil, parts] <;> omega
  | .struct q fs =>
    simp only [typeToken, Option.bind_eq_bind, Option.bind_eq_some_iff, Option.pure_def, Option.some.injEq] at h
    obtain ⟨c, hc, rfl⟩ := h
    have := path_length hc
    simp only [ToTokens.toks, id, List.length_append, List.length_cons, List.length_nil, parts]; omega
  | .enum q vs b =>
    simp only [typeToken, Option.bind_eq_bind, Option.bind_eq_some_iff, Option.pure_def, Option.some.injEq] at h
    obtain ⟨c, hc, rfl⟩ := h
    have := path_length hc
    simp only [ToTokens.toks, id, List.length_append, List.length_cons, List.length_nil, parts]; omega

theorem printLit_length (l : Lit) : (printLit l).length ≤ 2 := by
  cases l <;> simp only [printLit] <;> (try split) <;> simp

theorem defaultValue_length {ty : Toks} {d : Ast.DefaultValue} {t : Toks} (h : defaultValue ty d = some t) : t.length ≤ ty.length + 4 := by
  cases d with
  | scalar s =>
    simp only [defaultValue, Option.bind_eq_bind, Option.bind_eq_some_iff, Option.pure_def, Option.some.injEq] at h
    obtain ⟨l, _, rfl⟩ := h
    have := printLit_length l; omega
  | ident i =>
    simp only [defaultValue, Option.bind_eq_bind, Option.bind_eq_some_iff, Option.pure_def, Option.some.injEq] at h
    obtain ⟨l, _, rfl⟩ := h
    simp only [ToTokens.toks, id, List.length_append, List.length_cons, List.length_nil]; omega

theorem comment_length (d : Ast.Comment) : (comment d).length = 6 * d.length := by
  unfold comment
  rw [List.foldl_reverse]
  induction d with
  | nil => rfl
  | cons l d ih =>
    simp only [ToTokens.toks, id] at ih
    simp only [List.foldr_cons, ToTokens.toks, id, List.length_append, List.length_cons, List.length_nil, ih]; omega

theorem allow_length (ty : Ir.Ty) : (allowTypeComplexity ty).length ≤ 9 := by
  unfold allowTypeComplexity
  split <;> simp only [ToTokens.toks, id, List.length_append, List.length_cons, List.length_nil] <;> omega

theorem argTy_length {ns : Option QIdent} {ty : Ir.Ty} {life t : Toks} (hl : life.length ≤ 1) (h : argTy ns ty life = some t) :
    t.length ≤ 13 * parts ty + 2 * nsLen ns := by
  unfold argTy at h
  split at h
  · rename_i hu
    cases ty <;> simp only [Ir.Ty.isUnion, Bool.false_eq_true] at hu
    cases h
    simp only [ToTokens.toks, id, List.length_append, List.length_cons, List.length_nil, parts]; omega
  · exact typeToken_length ty hl (by simp) h

/-! ### Fields -/

theorem builderAddCall_length (f : Ir.Field) : (builderAddCall f).length ≤ 30 := by
  unfold builderAddCall
  dsimp only
  split <;> simp only [ToTokens.toks, id, List.length_append, List.length_cons, List.length_nil] <;> omega

theorem defaultValueDoc_length [FloatText] {ty : Ir.Ty} {d : Option Ast.DefaultValue} {t : Toks} (h : defaultValueDoc ty d = some t) :
    t.length ≤ 6 := by
  cases d with
  | none => cases h; simp
  | some d =>
    simp only [defaultValueDoc, Option.bind_eq_bind, Option.bind_eq_some_iff, Option.pure_def, Option.some.injEq] at h
    obtain ⟨l, _, rfl⟩ := h
    simp only [ToTokens.toks, id, List.length_append, List.length_cons, List.length_nil]; omega

theorem argsField_length [FloatText] {ns : Option QIdent} {f : Ir.Field} {t : Toks} (h : argsField ns f = some t) :
    t.length ≤ 13 * parts f.ty + 2 * nsLen ns + 30 := by
  simp only [argsField, Option.bind_eq_bind, Option.bind_eq_some_iff, Option.pure_def, Option.some.injEq] at h
  obtain ⟨a, ha, b, hb, rfl⟩ := h
  have h1 := argTy_length (by simp) ha
  have h2 := defaultValueDoc_length hb
  have h3 := allow_length f.ty
  split <;> simp only [ToTokens.toks, id, List.length_append, List.length_cons, List.length_nil] <;> omega

theorem argsLifetime_length (fields : List Ir.Field) (l : Toks) : (argsLifetime fields l).length ≤ l.length + 2 := by
  unfold argsLifetime
  split <;> simp only [ToTokens.toks, id, List.length_append, List.length_cons, List.length_nil] <;> omega

theorem argsFieldDefault_length {ns : Option QIdent} {f : Ir.Field} {t : Toks} (h : argsFieldDefault ns f = some t) :
    t.length ≤ 13 * parts f.ty + 2 * nsLen ns + 30 := by
  simp only [argsFieldDefault, Option.bind_eq_bind, Option.bind_eq_some_iff] at h
  obtain ⟨a, ha, h⟩ := h
  have h1 := typeToken_length f.ty (by simp) (by simp) ha
  split at h
  · cases h
    simp only [ToTokens.toks, id, List.length_append, List.length_cons, List.length_nil]; omega
  · split at h
    · split at h
      · split at h
        · simp only [Option.bind_eq_some_iff, Option.some.injEq] at h
          obtain ⟨_, _, rfl⟩ := h
          simp only [ToTokens.toks, id, List.length_append, List.length_cons, List.length_nil]; omega
        · cases h
      · split at h
        · simp only [Option.bind_eq_some_iff, Option.some.injEq] at h
          obtain ⟨l, _, rfl⟩ := h
          have := printLit_length l
          simp only [ToTokens.toks, id, List.length_append, List.length_cons, List.length_nil]; omega
        · cases h
    · cases h
      simp only [ToTokens.toks, id, List.length_append, List.length_cons, List.length_nil]; omega

theorem addBody_length {n : Str} {f : Ir.Field} {a t : Toks} (h : addBody n f a = some t) : t.length ≤ 2 * a.length + 30 := by
  unfold addBody at h
  dsimp only at h
  split at h
  · split at h
    · simp only [Option.bind_eq_bind, Option.bind_eq_some_iff, Option.pure_def, Option.some.injEq] at h
      obtain ⟨d, hd, rfl⟩ := h
      have := defaultValue_length hd
      simp only [ToTokens.toks, id, List.length_append, List.length_cons, List.length_nil]; omega
    · cases h
      simp only [ToTokens.toks, id, List.length_append, List.length_cons, List.length_nil]; omega
  · cases h
    simp only [ToTokens.toks, id, List.length_append, List.length_cons, List.length_nil]; omega

theorem builderFieldMethod_length {n : Str} {ns : Option QIdent} {f : Ir.Field} {t : Toks} (h : builderFieldMethod n ns f = some t) :
    t.length ≤ 3 * (13 * parts f.ty + 2 * nsLen ns) + 80 := by
  simp only [builderFieldMethod, Option.bind_eq_bind, Option.bind_eq_some_iff, Option.pure_def, Option.some.injEq] at h
  obtain ⟨a, ha, b, hb, rfl⟩ := h
  have h1 := argTy_length (by simp) ha
  have h2 := addBody_length hb
  have h3 := allow_length f.ty
  simp only [ToTokens.toks, id, List.length_append, List.length_cons, List.length_nil]; omega

theorem fieldOffsetConstant_length {gm : Mode} {i : Nat} {f : Ir.Field} {t : Toks} (h : fieldOffsetConstant gm i f = some t) :
    t.length ≤ 20 := by
  simp only [fieldOffsetConstant, Option.bind_eq_bind, Option.bind_eq_some_iff, Option.pure_def, Option.some.injEq] at h
  obtain ⟨a, ha, rfl⟩ := h
  simp only [ToTokens.toks, id, List.length_append, List.length_cons, List.length_nil]; omega

theorem requiredArm_length {n : Str} {ns : Option QIdent} {f : Ir.Field} {s u e t : Toks} {v : Ir.UnionVariant} (hs : s.length ≤ 1)
    (h : requiredArm n ns f s u e v = some t) : t.length ≤ 13 * parts v.ty + 2 * nsLen ns + u.length + e.length + 50 := by
  simp only [requiredArm, Option.bind_eq_bind, Option.bind_eq_some_iff, Option.pure_def, Option.some.injEq] at h
  obtain ⟨a, ha, b, hb, rfl⟩ := h
  have h1 := typeToken_length v.ty (by simp) (by simp) ha
  simp only [ToTokens.toks, id, List.length_append, List.length_cons, List.length_nil]; omega

theorem optionalArm_length {n : Str} {ns : Option QIdent} {f : Ir.Field} {u e t : Toks} {v : Ir.UnionVariant}
    (h : optionalArm n ns f u e v = some t) : t.length ≤ 13 * parts v.ty + 2 * nsLen ns + u.length + e.length + 50 := by
  simp only [optionalArm, Option.bind_eq_bind, Option.bind_eq_some_iff, Option.pure_def, Option.some.injEq] at h
  obtain ⟨a, ha, b, hb, rfl⟩ := h
  have h1 := typeToken_length v.ty (by simp) (by simp) ha
  simp only [ToTokens.toks, id, List.length_append, List.length_cons, List.length_nil]; omega

theorem getDefault_length {a t : Toks} {d : Option Ast.DefaultValue} (h : getDefault a d = some t) : t.length ≤ a.length + 10 := by
  cases d with
  | none => cases h; simp
  | some d =>
    simp only [getDefault, Option.bind_eq_bind, Option.bind_eq_some_iff, Option.pure_def, Option.some.injEq] at h
    obtain ⟨l, hl, rfl⟩ := h
    have := defaultValue_length hl
    simp only [ToTokens.toks, id, List.length_append, List.length_cons, List.length_nil]; omega

/-- The types of a field have at most `T` tokens, and its union has at most `V` variants. -/
structure FieldFits (T V : Nat) (ns : Option QIdent) (f : Ir.Field) : Prop where
  ty : 13 * parts f.ty + 2 * nsLen ns ≤ T
  union : ∀ q e vs, f.ty = .union q e vs → vs.length ≤ V ∧ 2 * (e.length + nsLen ns) ≤ T ∧
    ∀ v ∈ vs, 13 * parts v.ty + 2 * nsLen ns ≤ T

theorem sum_const {α : Type} (l : List α) (B : Nat) : (l.map fun _ => B).sum = l.length * B := by
  induction l with
  | nil => simp
  | cons a l ih => simp only [List.map_cons, List.sum_cons, ih, List.length_cons, Nat.add_mul]; omega

theorem unionAccessor_length {T V : Nat} {n : Str} {ns : Option QIdent} {f : Ir.Field} {s : Str} {r t : Toks} {q e : QIdent}
    {vs : List Ir.UnionVariant} (hv : vs.length ≤ V) (he : 2 * (e.length + nsLen ns) ≤ T) (hq : 2 * (q.length + nsLen ns) ≤ T)
    (ht : ∀ v ∈ vs, 13 * parts v.ty + 2 * nsLen ns ≤ T) (hr : r.length ≤ T) (h : unionAccessor n ns f s r q e vs = some t) :
    t.length ≤ V * (3 * T + 51) + 2 * T + 80 := by
  simp only [unionAccessor, Option.bind_eq_bind, Option.bind_eq_some_iff] at h
  obtain ⟨u, hu, en, hen, tn, htn, h⟩ := h
  have h1 := path_length hu
  have h2 := path_length hen
  have hm : vs.length * (3 * T + 51) ≤ V * (3 * T + 51) := Nat.mul_le_mul_right _ hv
  split at h
  · simp only [Option.bind_eq_some_iff, Option.some.injEq] at h
    obtain ⟨arms, ha, rfl⟩ := h
    have ⟨h3, h4⟩ := mapM_total (B := fun _ => 3 * T + 50) ha (fun v hv b hb => by
      have := requiredArm_length (by simp) hb
      have := ht v hv
      omega)
    rw [sum_const] at h3
    have e1 : vs.length * (3 * T + 51) = vs.length * (3 * T + 50) + vs.length := by rw [Nat.mul_succ]
    have h5 := endCommas_total arms
    simp only [ToTokens.toks, id, List.length_append, List.length_cons, List.length_nil]
    omega
  · simp only [Option.bind_eq_some_iff, Option.some.injEq] at h
    obtain ⟨arms, ha, rfl⟩ := h
    have ⟨h3, h4⟩ := mapM_total (B := fun _ => 3 * T + 50) ha (fun v hv b hb => by
      have := optionalArm_length hb
      have := ht v hv
      omega)
    rw [sum_const] at h3
    have e1 : vs.length * (3 * T + 51) = vs.length * (3 * T + 50) + vs.length := by rw [Nat.mul_succ]
    have h5 := endCommas_total arms
    simp only [ToTokens.toks, id, List.length_append, List.length_cons, List.length_nil]
    omega

theorem plainAccessor_length (n : Str) (f : Ir.Field) (s : Str) (r w d : Toks) :
    (plainAccessor n f s r w d).length ≤ r.length + w.length + d.length + 6 * f.doc.length + 80 := by
  have h3 := allow_length f.ty
  have h4 := comment_length f.doc
  unfold plainAccessor
  dsimp only
  split <;> simp only [ToTokens.toks, id, List.length_append, List.length_cons, List.length_nil] <;> omega

theorem fieldAccessor_length {T V : Nat} {n : Str} {ns : Option QIdent} {f : Ir.Field} {t : Toks} (hf : FieldFits T V ns f)
    (h : fieldAccessor n ns f = some t) : t.length ≤ V * (3 * T + 51) + 3 * T + 6 * f.doc.length + 100 := by
  simp only [fieldAccessor, Option.bind_eq_bind, Option.bind_eq_some_iff] at h
  obtain ⟨s, hs, r, hr, w, hw, d, hd, h⟩ := h
  have h1 := typeToken_length f.ty (by simp) (by simp) hr
  have h2 := typeToken_length f.ty (by simp) (by simp) hw
  have h3 := getDefault_length hd
  have h4 := hf.ty
  split at h
  · rename_i q e vs hu
    obtain ⟨u1, u2, u3⟩ := hf.union _ _ _ hu
    have h5 := h4
    rw [hu] at h5
    simp only [parts] at h5
    have := unionAccessor_length u1 u2 (by omega) u3 (by omega) h
    omega
  · cases h
    have := plainAccessor_length n f s r w d
    omega

theorem requiredField_length (n : Str) (f : Ir.Field) : (requiredField n f).length ≤ 20 := by
  unfold requiredField
  simp only [ToTokens.toks, id, List.length_append, List.length_cons, List.length_nil]; omega

/-! ### Items -/

/-- The tokens of a table, by its fields. -/
def fieldTokens (T V : Nat) (f : Ir.Field) : Nat := V * (3 * T + 51) + 9 * T + 6 * f.doc.length + 400

theorem argsDefaultImpl_length {T V : Nat} {ns : Option QIdent} {a : Str} {l : Toks} {fs : List Ir.Field} {t : Toks}
    (hf : ∀ f ∈ fs, FieldFits T V ns f) (h : argsDefaultImpl ns a l fs = some t) :
    t.length ≤ fs.length * (T + 31) + 2 * l.length + 40 := by
  unfold argsDefaultImpl at h
  split at h
  · simp only [Option.bind_eq_bind, Option.bind_eq_some_iff, Option.pure_def, Option.some.injEq] at h
    obtain ⟨r, hr, rfl⟩ := h
    have ⟨h1, h2⟩ := mapM_total (B := fun _ => T + 30) hr (fun f hm b hb => by
      have := argsFieldDefault_length hb
      have := (hf f hm).ty
      omega)
    rw [sum_const, Nat.mul_add] at h1
    have h3 := sepCommas_total r
    simp only [ToTokens.toks, id, List.length_append, List.length_cons, List.length_nil, Nat.mul_add] at *
    omega
  · cases h; simp

theorem sum_add {α : Type} (l : List α) (f g : α → Nat) : (l.map fun a => f a + g a).sum = (l.map f).sum + (l.map g).sum := by
  induction l with
  | nil => simp
  | cons a l ih => simp only [List.map_cons, List.sum_cons, ih]; omega

theorem sum_mul {α : Type} (l : List α) (f : α → Nat) (k : Nat) : (l.map fun a => k * f a).sum = k * (l.map f).sum := by
  induction l with
  | nil => simp
  | cons a l ih => simp only [List.map_cons, List.sum_cons, ih, Nat.mul_add]

theorem sum_fieldTokens (T V : Nat) (fs : List Ir.Field) : (fs.map (fieldTokens T V)).sum =
    fs.length * (V * (3 * T + 51)) + fs.length * (9 * T) + 6 * (fs.map (·.doc.length)).sum + fs.length * 400 := by
  induction fs with
  | nil => simp
  | cons f fs ih =>
    simp only [List.map_cons, List.sum_cons, ih, List.length_cons, Nat.add_mul, fieldTokens, Nat.mul_add]
    omega

theorem table_length [FloatText] {T V : Nat} {gm : Mode} {t : Ir.Table} {ts : Toks}
    (hf : ∀ f ∈ t.fields, FieldFits T V (QIdent.namespace t.ident) f) (h : table gm t = some ts) :
    ts.length ≤ (t.fields.map (fieldTokens T V)).sum + 6 * t.doc.length + 700 := by
  simp only [table, Option.bind_eq_bind, Option.bind_eq_some_iff, Option.pure_def, Option.some.injEq] at h
  obtain ⟨n, -, _, -, af, haf, ad, had, bm, hbm, fo, hfo, fa, hfa, rfl⟩ := h
  have a1 := argsLifetime_length t.fields (quote! "'a")
  have a2 := argsLifetime_length t.fields (quote! "'args")
  have ⟨b1, b1'⟩ := mapM_total (B := fun _ => T + 30) haf (fun f hm b hb => by
    have := argsField_length hb
    have := (hf f hm).ty
    omega)
  have b2 := argsDefaultImpl_length hf had
  have ⟨b3, _⟩ := mapM_total (B := fun _ => 3 * T + 80) hbm (fun f hm b hb => by
    have := builderFieldMethod_length hb
    have := (hf f hm).ty
    omega)
  have ⟨b4, _⟩ := mapM_total (B := fun _ => 20) hfo (fun f hm b hb => fieldOffsetConstant_length hb)
  have ⟨b5, _⟩ := mapM_total (B := fun f => V * (3 * T + 51) + 3 * T + 6 * f.doc.length + 100) hfa
    (fun f hm b hb => fieldAccessor_length (hf f hm) hb)
  have b6 := map_total (f := builderAddCall) (l := t.fields) (B := fun _ => 30) (fun f _ => builderAddCall_length f)
  have b7 := map_total (f := requiredField n) (l := t.fields.filter (·.required)) (B := fun _ => 20)
    (fun f _ => requiredField_length n f)
  have b8 := List.length_filter_le (fun f : Ir.Field => f.required) t.fields
  have c1 := sepCommas_total af
  have c2 := comment_length t.doc
  rw [sum_const] at b1 b3 b4 b6 b7
  rw [sum_add, sum_add, sum_add, sum_const, sum_const, sum_const, sum_mul] at b5
  rw [List.length_zipIdx] at b4
  rw [sum_fieldTokens]
  simp only [Nat.mul_add, Nat.mul_left_comm _ 3 T, Nat.mul_left_comm _ 9 T] at *
  simp only [tableStruct, tableFrom, tableInto, tableCreate, tableAccess, tableFollow, tableFollowBuf, argsStruct, builderStruct,
    builderImpl, ToTokens.toks, id, List.length_append, List.length_cons, List.length_nil, flatten_total] at *
  omega

theorem variantAndScalar_total {b : Toks} {l : List (Ir.EnumVariant × Nat)} {r : List (Str × Toks × Toks)}
    (h : l.mapM (variantAndScalar b) = some r) : r.length = l.length ∧ (∀ x ∈ r, x.2.1.length ≤ 2) ∧
      (r.map fun x => x.2.2.length).sum = 6 * (l.map fun x => x.1.doc.length).sum := by
  have h' := Rs.mapM_forall₂ h
  clear h
  induction h' with
  | nil => simp
  | cons h _ ih =>
    simp only [variantAndScalar, Option.bind_eq_bind, Option.bind_eq_some_iff, Option.pure_def, Option.some.injEq] at h
    obtain ⟨k, _, l, _, rfl⟩ := h
    obtain ⟨i1, i2, i3⟩ := ih
    refine ⟨by simp [i1], ?_, ?_⟩
    · intro x hx
      rcases List.mem_cons.mp hx with rfl | hx
      · exact printLit_length l
      · exact i2 x hx
    · simp only [List.map_cons, List.sum_cons, i3, comment_length]; omega

theorem enumBase_length (b : Ir.EnumBase) : (enumBase b).length = 1 := by cases b <;> rfl

theorem enum_length {e : Ir.Enum} {ts : Toks} (h : «enum» e = some ts) :
    ts.length ≤ e.variants.length * 80 + 6 * (e.variants.map (·.doc.length)).sum + 6 * e.doc.length + 700 := by
  simp only [«enum», Option.bind_eq_bind, Option.bind_eq_some_iff, Option.pure_def, Option.some.injEq] at h
  obtain ⟨n, -, vs, hvs, rfl⟩ := h
  obtain ⟨h1, h2, h3⟩ := variantAndScalar_total hvs
  rw [List.length_zipIdx] at h1
  have e1 : (List.zipIdx e.variants).map (fun x => x.1.doc.length) = e.variants.map (·.doc.length) := by
    conv_rhs => rw [← List.zipIdx_map_fst 0 e.variants, List.map_map]
    rfl
  rw [e1] at h3
  have b1 := map_total (f := fun x : Str × Toks × Toks => nameToString n x.1) (l := vs) (B := fun _ => 5) (fun x _ => by
    simp [nameToString, ToTokens.toks])
  have b2 := map_total (f := fromBase n) (l := vs) (B := fun _ => 15) (fun x hx => by
    have := h2 x hx
    simp only [fromBase, ToTokens.toks, id, List.length_append, List.length_cons, List.length_nil]; omega)
  have b3 := map_total (f := toBase n) (l := vs) (B := fun _ => 15) (fun x hx => by
    have := h2 x hx
    simp only [toBase, ToTokens.toks, id, List.length_append, List.length_cons, List.length_nil]; omega)
  have b4 := map_total (f := enumField) (l := vs) (B := fun x => 10 + x.2.2.length) (fun x hx => by
    have := h2 x hx
    simp only [enumField, ToTokens.toks, id, List.length_append, List.length_cons, List.length_nil]; omega)
  have b5 : (enumDefault n vs).length ≤ 3 := by
    cases vs <;> simp [enumDefault, ToTokens.toks]
  rw [sum_const] at b1 b2 b3
  rw [sum_add, sum_const] at b4
  have c1 := sepCommas_total (vs.map enumField)
  have c2 := sepCommas_total (vs.map (toBase n))
  have c3 := endCommas_total (vs.map (fromBase n))
  have c4 := sepCommas_total (vs.map fun x => nameToString n x.1)
  have c5 := comment_length e.doc
  have c6 := enumBase_length e.base
  simp only [List.length_map] at c1 c2 c3 c4
  simp only [enumItem, enumDefaultImpl, enumFollow, enumTryFrom, enumInto, enumPush, enumName, ToTokens.toks, id, List.length_append,
    List.length_cons, List.length_nil, flatten_total] at *
  omega

theorem union_length {T : Nat} {u : Ir.Union} {ts : Toks} (he : 2 * (u.enumIdent.length + nsLen (QIdent.namespace u.ident)) ≤ T)
    (hv : ∀ v ∈ u.variants, 13 * parts v.ty + 2 * nsLen (QIdent.namespace u.ident) ≤ T) (h : union u = some ts) :
    ts.length ≤ u.variants.length * (2 * T + 30) + 6 * (u.variants.map (·.doc.length)).sum + 6 * u.doc.length + T + 100 := by
  simp only [union, Option.bind_eq_bind, Option.bind_eq_some_iff, Option.pure_def, Option.some.injEq] at h
  obtain ⟨n, -, en, hen, vs, hvs, rfl⟩ := h
  have h1 := path_length hen
  have ⟨b1, b1'⟩ := mapM_total (B := fun v => T + 5 + 6 * v.doc.length) hvs (fun v hm b hb => by
    simp only [unionVariant, Option.bind_eq_bind, Option.bind_eq_some_iff, Option.pure_def, Option.some.injEq] at hb
    obtain ⟨i, -, y, hy, rfl⟩ := hb
    have := typeToken_length v.ty (by simp) (by simp) hy
    have := hv v hm
    have := comment_length v.doc
    simp only [ToTokens.toks, id, List.length_append, List.length_cons, List.length_nil]; omega)
  have b2 := map_total (f := unionArm n en) (l := u.variants) (B := fun _ => T + 15) (fun v hm => by
    simp only [unionArm, ToTokens.toks, id, List.length_append, List.length_cons, List.length_nil]; omega)
  rw [sum_const] at b2
  rw [sum_add, sum_const, sum_mul] at b1
  have c1 := sepCommas_total vs
  have c2 := sepCommas_total (u.variants.map (unionArm n en))
  have c3 := comment_length u.doc
  simp only [List.length_map] at c2
  simp only [Nat.mul_add, Nat.mul_left_comm _ 2 T] at *
  simp only [unionItem, unionImpl, ToTokens.toks, id, List.length_append, List.length_cons, List.length_nil] at *
  omega

/-- The number of fields, variants and lines of documentation of an item, and one. -/
def itemWeight : Ir.Node → Nat
  | .table t => t.fields.length + (t.fields.map (·.doc.length)).sum + t.doc.length + 1
  | .enum e => e.variants.length + (e.variants.map (·.doc.length)).sum + e.doc.length + 1
  | .union u => u.variants.length + (u.variants.map (·.doc.length)).sum + u.doc.length + 1
  | _ => 1

/-- The types that an item names have at most `T` tokens, and its unions have at most `V` variants. -/
def ItemFits (T V : Nat) : Ir.Node → Prop
  | .table t => ∀ f ∈ t.fields, FieldFits T V (QIdent.namespace t.ident) f
  | .union u => 2 * (u.enumIdent.length + nsLen (QIdent.namespace u.ident)) ≤ T ∧
      ∀ v ∈ u.variants, 13 * parts v.ty + 2 * nsLen (QIdent.namespace u.ident) ≤ T
  | _ => True

theorem node_length [FloatText] {T V : Nat} {gm : Mode} {n : Ir.Node} {ts : Toks} (hi : n.isItem = true) (hf : ItemFits T V n)
    (h : node gm n = some ts) : ts.length ≤ itemWeight n * ((V + 1) * (9 * T + 700)) := by
  have e0 : (V + 1) * (9 * T + 700) = 9 * (V * T) + 700 * V + 9 * T + 700 := by
    simp only [Nat.add_mul, Nat.mul_add, Nat.mul_left_comm V 9 T]; omega
  generalize hQ : (V + 1) * (9 * T + 700) = Q at *
  have mono : ∀ k c, c ≤ Q → k * c ≤ k * Q := fun k c hc => Nat.mul_le_mul_left k hc
  cases n with
  | table t =>
    have := table_length hf (h : table gm t = some ts)
    rw [sum_fieldTokens] at this
    have m1 := mono t.fields.length (V * (3 * T + 51) + 9 * T + 400) (by
      simp only [Nat.mul_add, Nat.mul_left_comm V 3 T]; omega)
    have m2 := mono (t.fields.map (·.doc.length)).sum 6 (by omega)
    have m3 := mono t.doc.length 6 (by omega)
    simp only [itemWeight, Nat.add_mul, Nat.mul_add] at *
    omega
  | enum e =>
    have := enum_length (h : «enum» e = some ts)
    have m1 := mono e.variants.length 80 (by omega)
    have m2 := mono (e.variants.map (·.doc.length)).sum 6 (by omega)
    have m3 := mono e.doc.length 6 (by omega)
    simp only [itemWeight, Nat.add_mul]
    omega
  | union u =>
    have := union_length hf.1 hf.2 (h : union u = some ts)
    have m1 := mono u.variants.length (2 * T + 30) (by omega)
    have m2 := mono (u.variants.map (·.doc.length)).sum 6 (by omega)
    have m3 := mono u.doc.length 6 (by omega)
    simp only [itemWeight, Nat.add_mul]
    omega
  | struct s => cases h
  | rpc r => cases h; simp
  | «namespace» i ns => cases hi

/-- The bound for an item below some modules. -/
def leafBound (Q : Nat) (x : List Ir.Ident × Ir.Node) : Nat := itemWeight x.2 * Q + 5 * x.1.length

open Ir in
mutual
theorem leaves_ne {path : List Ident} : ∀ {n : Node}, n.Proper path → n.leaves path ≠ []
  | .namespace i ns, h => by
    rw [Node.leaves]
    exact leavesL_ne h.2.1 h.2.2.2
  | .table _, _ | .struct _, _ | .enum _, _ | .union _, _ | .rpc _, _ => by simp [Node.leaves]
theorem leavesL_ne {path : List Ident} : ∀ {l : List Node}, l ≠ [] → Node.ProperL path l → Node.leavesL path l ≠ []
  | [], h, _ => absurd rfl h
  | n :: l, _, h => by
    rw [Node.leavesL]
    intro e
    exact leaves_ne h.1 (List.append_eq_nil_iff.mp e).1
end

open Ir in
mutual
theorem node_total [FloatText] {T V : Nat} {gm : Mode} {path : List Ident} : ∀ {n : Node} {ts : Toks}, n.Proper path →
    (∀ x ∈ n.leaves path, ItemFits T V x.2) → node gm n = some ts →
    ts.length + 5 * (path.length * (n.leaves path).length) ≤ ((n.leaves path).map (leafBound ((V + 1) * (9 * T + 700)))).sum
  | .namespace i ns, ts, hp, hf, h => by
    rw [Node.leaves] at *
    rw [node] at h
    simp only [Option.bind_eq_bind, Option.bind_eq_some_iff, Option.pure_def, Option.some.injEq] at h
    obtain ⟨m, -, us, hus, rfl⟩ := h
    have := nodes_total hp.2.2.2 hf hus
    have hne := leavesL_ne hp.2.1 hp.2.2.2
    have hpos := List.length_pos_iff.mpr hne
    rw [List.length_append, List.length_singleton, Nat.add_mul] at this
    simp only [ToTokens.toks, id, List.length_append, List.length_cons, List.length_nil]
    omega
  | .table t, ts, _, hf, h => by
    have := node_length (n := .table t) rfl (hf (path, .table t) (by simp [Node.leaves])) h
    simp only [Node.leaves, List.map_cons, List.map_nil, List.sum_cons, List.sum_nil, leafBound, List.length_singleton]; omega
  | .struct t, ts, _, hf, h => by
    have := node_length (n := .struct t) rfl (hf (path, .struct t) (by simp [Node.leaves])) h
    simp only [Node.leaves, List.map_cons, List.map_nil, List.sum_cons, List.sum_nil, leafBound, List.length_singleton]; omega
  | .enum t, ts, _, hf, h => by
    have := node_length (n := .enum t) rfl (hf (path, .enum t) (by simp [Node.leaves])) h
    simp only [Node.leaves, List.map_cons, List.map_nil, List.sum_cons, List.sum_nil, leafBound, List.length_singleton]; omega
  | .union t, ts, _, hf, h => by
    have := node_length (n := .union t) rfl (hf (path, .union t) (by simp [Node.leaves])) h
    simp only [Node.leaves, List.map_cons, List.map_nil, List.sum_cons, List.sum_nil, leafBound, List.length_singleton]; omega
  | .rpc t, ts, _, hf, h => by
    have := node_length (n := .rpc t) rfl (hf (path, .rpc t) (by simp [Node.leaves])) h
    simp only [Node.leaves, List.map_cons, List.map_nil, List.sum_cons, List.sum_nil, leafBound, List.length_singleton]; omega
theorem nodes_total [FloatText] {T V : Nat} {gm : Mode} {path : List Ident} : ∀ {l : List Node} {ts : Toks}, Node.ProperL path l →
    (∀ x ∈ Node.leavesL path l, ItemFits T V x.2) → nodes gm l = some ts →
    ts.length + 5 * (path.length * (Node.leavesL path l).length) ≤
      ((Node.leavesL path l).map (leafBound ((V + 1) * (9 * T + 700)))).sum
  | [], ts, _, _, h => by
    rw [nodes] at h
    cases h
    simp [Node.leavesL]
  | n :: l, ts, hp, hf, h => by
    rw [Node.leavesL] at *
    rw [nodes] at h
    simp only [Option.bind_eq_bind, Option.bind_eq_some_iff, Option.pure_def, Option.some.injEq] at h
    obtain ⟨a, ha, b, hb, rfl⟩ := h
    have h1 := node_total hp.1 (fun x hx => hf x (List.mem_append_left _ hx)) ha
    have h2 := nodes_total hp.2 (fun x hx => hf x (List.mem_append_right _ hx)) hb
    rw [List.map_append, List.sum_append, List.length_append, List.length_append, Nat.mul_add]
    omega
end

end Quote
end Butte.Src
