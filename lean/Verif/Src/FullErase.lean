import Verif.Src.Full
import Verif.Src.FullPrint
import Verif.Src.Erase
import Verif.Gen.Paths
import Mathlib.Data.List.Forall2
/-
The trees of `Src/Full.lean` can be read back when all names are names, and what of them matters when they run is what
`Rs/Emit.lean` emits.
-/
namespace Butte.Src
open Ir (QIdent)
open Gen (formatIdent)
open Rs (pathTokens Lit fwdPath vectorPath wipPath)

/-- Both fail, or both succeed with related results. -/
inductive Agree {α β : Type} (R : α → β → Prop) : Option α → Option β → Prop
  | none : Agree R none none
  | some {a : α} {b : β} : R a b → Agree R (some a) (some b)

namespace Agree
variable {α β γ δ : Type} {R : α → β → Prop} {S : γ → δ → Prop}

theorem bind {a : Option α} {b : Option β} (h : Agree R a b) {f : α → Option γ} {g : β → Option δ}
    (k : ∀ x y, R x y → Agree S (f x) (g y)) : Agree S (a.bind f) (b.bind g) := by
  cases h with
  | none => exact .none
  | some h => exact k _ _ h

theorem map {a : Option α} {b : Option β} (h : Agree R a b) {f : α → γ} {g : β → δ}
    (k : ∀ x y, R x y → S (f x) (g y)) : Agree S (a.map f) (b.map g) := by
  cases h with
  | none => exact .none
  | some h => exact .some (k _ _ h)

theorem same {a : Option α} {f : α → Option γ} {g : α → Option δ} (k : ∀ x, a = Option.some x → Agree S (f x) (g x)) :
    Agree S (a.bind f) (a.bind g) := by
  cases a with
  | none => exact .none
  | some x => exact k x rfl

theorem mono {T : α → β → Prop} {a : Option α} {b : Option β} (h : Agree R a b) (k : ∀ x y, R x y → T x y) : Agree T a b := by
  cases h with
  | none => exact .none
  | some h => exact .some (k _ _ h)

theorem mapM {ι : Type} {R : ι → α → β → Prop} {f : ι → Option α} {g : ι → Option β} : ∀ {xs : List ι},
    (∀ x ∈ xs, Agree (R x) (f x) (g x)) → Agree (fun as bs => List.Forall₂ (fun a b => ∃ x ∈ xs, R x a b) as bs) (xs.mapM f) (xs.mapM g)
  | [], _ => .some .nil
  | x :: xs, h => by
    have ih := mapM (xs := xs) fun y hy => h y (by simp [hy])
    simp only [List.mapM_cons, Option.bind_eq_bind]
    refine (h x (by simp)).bind fun a b hab => ih.bind fun as bs hs => .some (.cons ⟨x, by simp, hab⟩ ?_)
    exact hs.imp fun a b ⟨y, hy, hr⟩ => ⟨y, by simp [hy], hr⟩

theorem isSome {a : Option α} {b : Option β} (h : Agree R a b) : a.isSome = b.isSome := by cases h <;> rfl

end Agree

/-! ### Names -/

theorem nameOk_iff {s : Str} : nameOk s = true ↔ s ∉ c!"_" :: Gen.rustKeywords := by
  simp [nameOk, and_comm]

theorem nameOk_prefix {p : Str} (h : ∀ k ∈ c!"_" :: Gen.rustKeywords, ¬ p <+: k) (s : Str) : nameOk (p ++ s) = true :=
  nameOk_iff.mpr fun hm => h _ hm (List.prefix_append p s)

theorem nameOk_suffix {p : Str} (h : ∀ k ∈ c!"_" :: Gen.rustKeywords, ¬ p <:+ k) (s : Str) : nameOk (s ++ p) = true :=
  nameOk_iff.mpr fun hm => h _ hm (List.suffix_append s p)

theorem segOk_of {s : Str} (h : nameOk s = true) : segOk s = true := by simp [segOk, h]

theorem addName_ok (f : Ir.Field) : nameOk (Rs.addName f) = true := nameOk_prefix (by decide) _
theorem offsetId_ok (f : Ir.Field) : nameOk (Quote.offsetId f) = true := nameOk_prefix (by decide) _
theorem args_ok (n : Str) : nameOk (n ++ c!"Args") = true := nameOk_suffix (by decide) _
theorem builder_ok (n : Str) : nameOk (n ++ c!"Builder") = true := nameOk_suffix (by decide) _
theorem tag_ok (n : Str) : nameOk (n ++ c!"_type") = true := nameOk_suffix (by decide) _
theorem enumName_ok (n : Str) : nameOk (c!"enum_name_" ++ n) = true := nameOk_prefix (by decide) _

/-- Every segment can be one. -/
def SegsOk (q : List Str) : Prop := ∀ s ∈ q, segOk s = true

/-- The names of a field can be read back. -/
structure FieldLegible (ns : Option QIdent) (f : Ir.Field) : Prop where
  ident : nameOk f.ident = true
  notNone : f.ident ≠ c!"None"
  snake : nameOk (Heck.snake f.ident) = true
  paths : ∀ q ∈ Gen.tyPaths f.ty, SegsOk (QIdent.relative q ns)
  dflt : f.ty.isUnion = false → ∀ i, f.default = some (.ident i) → nameOk i = true
  union : ∀ q e vs, f.ty = .union q e vs → SegsOk (QIdent.relative e ns) ∧
    ∀ v ∈ vs, nameOk v.ident = true ∧ ∀ q ∈ Gen.tyPaths v.ty, SegsOk (QIdent.relative q ns)

/-- A path that is not empty, and one more name. -/
theorem pathWf_snoc {p : List Str} (h : SegsOk p) {n : Str} (hn : nameOk n = true) : pathWf (p ++ [n]) :=
  ⟨by simp, by
    intro s hs
    rcases List.mem_append.mp hs with hs | hs
    · exact h s hs
    · rw [List.mem_singleton.mp hs]; exact segOk_of hn⟩

theorem splitPath_snoc {p : List Str} (h : p ≠ []) (n : Str) : splitPath (p ++ [n]) = some (.path p, n) := by
  simp [splitPath, h]

theorem pathWf_one {s : Str} (h : nameOk s = true) : pathWf [s] := ⟨by simp, by simpa using segOk_of h⟩

/-! ### Types -/

theorem word_erase (s : Str) : (Full.word s).erase = some (.path [s]) := rfl
theorem word_wf {s : Str} (h : nameOk s = true) : (Full.word s).Wf := ⟨pathWf_one h, fun _ => rfl, trivial⟩

theorem bytes_erase (l : Option Str) : (Full.bytes l).erase = some Rs.bytesTy := rfl
theorem bytes_wf (l : Option Str) : (Full.bytes l).Wf := word_wf (s := c!"u8") rfl

theorem wrapped_agree {w : Option (List Str)} {o : Bool} {z : Ty} {y : Rs.Ty} (h : z.erase = some y) :
    (Full.wrapped w o z).erase = some (Rs.wrapped w o y) := by
  cases w with
  | none => exact h
  | some w => cases o <;> simp [Full.wrapped, Rs.wrapped, Ty.erase, eraseArgs, h]

theorem wrapped_wf {w : Option (List Str)} (hw : ∀ p ∈ w, pathWf p) {o : Bool} {z : Ty} (h : z.Wf) : (Full.wrapped w o z).Wf := by
  cases w with
  | none => exact h
  | some w => cases o <;> simp [Full.wrapped, Ty.Wf, argsWf, GArg.Wf, h, hw w rfl]

/-- The paths to wrap with. -/
theorem fwd_wf : ∀ p ∈ some fwdPath, pathWf p := by
  rintro p ⟨⟩; exact ⟨by simp [fwdPath], by decide⟩
theorem wip_wf : ∀ p ∈ some wipPath, pathWf p := by
  rintro p ⟨⟩; exact ⟨by simp [wipPath], by decide⟩

/-- Types agree. -/
theorem typeToken_agree (ns : Option QIdent) : ∀ (ty : Ir.Ty) (l : Str) (w : Option (List Str)) (o : Bool), (∀ p ∈ w, pathWf p) →
    Agree (fun z y => z.erase = some y ∧ ((∀ q ∈ Gen.tyPaths ty, SegsOk (QIdent.relative q ns)) → z.Wf))
      (Full.typeToken ns ty l w o) (Rs.typeToken ns ty w o)
  | .builtin b, _, _, _, _ => .some ⟨rfl, fun _ => word_wf (by cases b <;> rfl)⟩
  | .string, _, _, _, hw => .some ⟨wrapped_agree rfl, fun _ => wrapped_wf hw (word_wf (s := c!"str") rfl)⟩
  | .array t, l, w, o, hw => by
    simp only [Full.typeToken, Rs.typeToken]
    refine (typeToken_agree ns t l (some fwdPath) true fwd_wf).bind fun z y ⟨he, hz⟩ => .some ⟨wrapped_agree ?_, fun h => wrapped_wf hw ?_⟩
    · simp [Ty.erase, eraseArgs, he]
    · exact ⟨⟨by simp [vectorPath], by decide⟩, by simp, trivial, hz h, trivial⟩
  | .table q, l, w, o, hw => by
    simp only [Full.typeToken, Rs.typeToken]
    refine Agree.same fun p hp => .some ⟨wrapped_agree (by simp [Ty.erase, eraseArgs, bytes_erase]), fun h => wrapped_wf hw ?_⟩
    obtain ⟨rfl, hne⟩ := pathTokens_some hp
    exact ⟨⟨hne, h q (by simp [Gen.tyPaths])⟩, by simp, bytes_wf (Full.refLife l), trivial⟩
  | .union q _ _, l, w, o, hw => by
    simp only [Full.typeToken, Rs.typeToken]
    refine Agree.same fun p hp => .some ⟨wrapped_agree (by simp [Ty.erase, eraseArgs]), fun h => wrapped_wf hw ?_⟩
    obtain ⟨rfl, hne⟩ := pathTokens_some hp
    exact ⟨⟨hne, h q (by simp [Gen.tyPaths])⟩, by simp, trivial, trivial⟩
  | .struct q _, l, w, o, hw => by
    simp only [Full.typeToken, Rs.typeToken]
    refine Agree.same fun p hp => .some ⟨by simp [Ty.erase, eraseArgs], fun h => ?_⟩
    obtain ⟨rfl, hne⟩ := pathTokens_some hp
    exact ⟨⟨hne, h q (by simp [Gen.tyPaths])⟩, by simp, trivial⟩
  | .enum q _ _, l, w, o, hw => by
    simp only [Full.typeToken, Rs.typeToken]
    refine Agree.same fun p hp => .some ⟨by simp [Ty.erase, eraseArgs], fun h => ?_⟩
    obtain ⟨rfl, hne⟩ := pathTokens_some hp
    exact ⟨⟨hne, h q (by simp [Gen.tyPaths])⟩, by simp, trivial⟩

theorem suffix_path (p : List Str) : Quote.suffix (printPath p) = Rs.suffix (.path p) := by
  match p with
  | [] => rfl
  | [s] => rfl
  | s :: t :: p => rfl

theorem suffix_long {ts : Toks} (h : 2 ≤ ts.length) : Quote.suffix ts = none := by
  match ts with
  | [] => simp at h
  | [_] => simp at h
  | _ :: _ :: _ => unfold Quote.suffix; split <;> simp_all

theorem printPath_length : ∀ {p : List Str}, p ≠ [] → 1 ≤ (printPath p).length
  | [], h => absurd rfl h
  | [_], _ => by simp [printPath]
  | _ :: _ :: _, _ => by simp [printPath]

/-- The same suffix, unless it is a union that is not wrapped. -/
theorem typeToken_suffix {ns : Option QIdent} {ty : Ir.Ty} {l : Str} {w : Option (List Str)} {o : Bool} (hw : ∀ p ∈ w, pathWf p)
    (hu : ty.isUnion = true → w ≠ none ∧ o = true) {z : Ty} {y : Rs.Ty} (hz : Full.typeToken ns ty l w o = some z)
    (hy : Rs.typeToken ns ty w o = some y) : Quote.suffix z.print = Rs.suffix y := by
  have wr : ∀ {z : Ty} {y : Rs.Ty}, (w = none ∨ o = false → Quote.suffix z.print = Rs.suffix y) →
      Quote.suffix (Full.wrapped w o z).print = Rs.suffix (Rs.wrapped w o y) := by
    intro z y h
    rw [Quote.wrapped_print fun p hp => (hw p hp).1]
    cases w with
    | none => exact h (.inl rfl)
    | some p =>
      cases o with
      | false => simpa [Quote.wrapToks, Rs.wrapped] using h (.inr rfl)
      | true =>
        have := printPath_ne (hw p rfl).1
        simp only [Quote.wrapToks, List.isEmpty_iff, this, Bool.not_true, Bool.or_false, if_false,
          Rs.wrapped, if_true]
        rw [suffix_long (by simp; omega)]
        rfl
  cases ty with
  | builtin b =>
    simp only [Full.typeToken, Rs.typeToken, Option.some.injEq] at hz hy
    subst hz hy; rfl
  | string =>
    simp only [Full.typeToken, Rs.typeToken, Option.some.injEq] at hz hy
    subst hz hy
    exact wr fun _ => suffix_long (by simp [Ty.print, Full.word, printPath]; omega)
  | array t =>
    simp only [Full.typeToken, Rs.typeToken, Option.bind_eq_bind, Option.bind_eq_some_iff, pure, Option.some.injEq] at hz hy
    obtain ⟨_, -, rfl⟩ := hz
    obtain ⟨_, -, rfl⟩ := hy
    exact wr fun _ => suffix_long (by simp [Ty.print, vectorPath, printPath])
  | table q =>
    simp only [Full.typeToken, Rs.typeToken, Option.bind_eq_bind, Option.bind_eq_some_iff, pure, Option.some.injEq] at hz hy
    obtain ⟨p, hp, rfl⟩ := hz
    obtain ⟨_, -, rfl⟩ := hy
    have := printPath_length (pathTokens_some hp).2
    exact wr fun _ => suffix_long (by simp [Ty.print]; omega)
  | union q e vs =>
    simp only [Full.typeToken, Rs.typeToken, Option.bind_eq_bind, Option.bind_eq_some_iff, pure, Option.some.injEq] at hz hy
    obtain ⟨p, hp, rfl⟩ := hz
    obtain ⟨_, -, rfl⟩ := hy
    obtain ⟨h1, h2⟩ := hu rfl
    exact wr fun h => by
      rcases h with h | h
      · exact absurd h h1
      · rw [h] at h2; cases h2
  | struct q fs =>
    simp only [Full.typeToken, Rs.typeToken, Option.bind_eq_bind, Option.bind_eq_some_iff, pure, Option.some.injEq] at hz hy
    obtain ⟨p, hp, rfl⟩ := hz
    obtain ⟨_, hp', rfl⟩ := hy
    rw [hp] at hp'
    cases hp'
    exact suffix_path p
  | «enum» q vs b =>
    simp only [Full.typeToken, Rs.typeToken, Option.bind_eq_bind, Option.bind_eq_some_iff, pure, Option.some.injEq] at hz hy
    obtain ⟨p, hp, rfl⟩ := hz
    obtain ⟨_, hp', rfl⟩ := hy
    rw [hp] at hp'
    cases hp'
    exact suffix_path p

theorem fmtLit_congr {ts : Toks} {y : Rs.Ty} (h : Quote.suffix ts = Rs.suffix y) (s : Ast.Scalar) : Quote.fmtLit s ts = Rs.fmtLit s y := by
  cases s <;> simp [Quote.fmtLit, Rs.fmtLit, h]

/-! ### Expressions -/

/-- An expression can be read back, and its erasure is the other one. -/
def EOk (h : Prop) (z : Expr) (y : Rs.Expr) : Prop := h → z.Wf true ∧ z.erase = some y.forget

theorem v_erase {x : Str} (h : x ≠ c!"None") : (Full.v x).erase = some (.var x) := by simp [Full.v, Expr.erase, erasePath, h]
theorem v_wf {x : Str} {b : Bool} (h : nameOk x = true) : (Full.v x).Wf b := ⟨pathWf_one h, trivial⟩
theorem self_wf {b : Bool} : (Full.v c!"self").Wf b := ⟨⟨by simp, by decide⟩, trivial⟩
theorem none_erase : (Full.v c!"None").erase = some .none := rfl

theorem slot_erase (n : Str) (f : Ir.Field) : (Full.slotExpr n f).erase = some (Rs.slotExpr n f) := rfl
theorem slot_wf {n : Str} (h : nameOk n = true) (f : Ir.Field) : (Full.slotExpr n f).Wf true :=
  ⟨pathWf_snoc (p := [n]) (by simpa [SegsOk] using segOk_of h) (offsetId_ok f), trivial⟩

theorem defaultValue_agree {z : Ty} {y : Rs.Ty} {d : Ast.DefaultValue} {h : Prop} (he : z.erase = some y) (hz : h → z.Wf)
    (hs : Quote.suffix z.print = Rs.suffix y) (hd : ∀ i, d = .ident i → h → nameOk i = true) :
    Agree (EOk h) (Full.defaultValue z d) (Rs.defaultValue y d) := by
  cases d with
  | scalar s =>
    simp only [Full.defaultValue, Full.fmtLit, Rs.defaultValue, fmtLit_congr hs]
    exact Agree.same fun l _ => .some fun _ => ⟨trivial, rfl⟩
  | ident i =>
    simp only [Full.defaultValue, Rs.defaultValue]
    refine Agree.same fun n hn => .some fun h' => ⟨⟨hz h', by simp, ?_⟩, by simp [Expr.erase, he, Rs.Expr.forget]⟩
    rw [Gen.formatIdent_eq hn]
    exact hd i rfl h'


theorem Agree.with {α β : Type} {R : α → β → Prop} {a : Option α} {b : Option β} (h : Agree R a b) :
    Agree (fun x y => R x y ∧ a = Option.some x ∧ b = Option.some y) a b := by
  cases h with
  | none => exact .none
  | some h => exact .some ⟨h, rfl, rfl⟩

/-- What the types of a field have in common. -/
def TOk (h : Prop) (z : Ty) (y : Rs.Ty) : Prop := z.erase = some y ∧ (h → z.Wf)

theorem typeToken_full {ns : Option QIdent} {ty : Ir.Ty} {h : Prop} (hp : h → ∀ q ∈ Gen.tyPaths ty, SegsOk (QIdent.relative q ns))
    (l : Str) (w : Option (List Str)) (o : Bool) (hw : ∀ p ∈ w, pathWf p) :
    Agree (fun z y => TOk h z y ∧ ((ty.isUnion = true → w ≠ none ∧ o = true) → Quote.suffix z.print = Rs.suffix y))
      (Full.typeToken ns ty l w o) (Rs.typeToken ns ty w o) :=
  (typeToken_agree ns ty l w o hw).with.mono fun _ _ ⟨⟨he, hz⟩, h1, h2⟩ =>
    ⟨⟨he, fun h => hz (hp h)⟩, fun hu => typeToken_suffix hw hu h1 h2⟩

theorem argTy_agree (ns : Option QIdent) (f : Ir.Field) (l : Str) :
    Agree (fun z y => TOk (FieldLegible ns f) z y ∧ (f.ty.isUnion = false → Quote.suffix z.print = Rs.suffix y))
      (Full.argTy ns f.ty l) (Rs.argTy ns f.ty) := by
  unfold Full.argTy Rs.argTy
  split
  · rename_i hu
    exact .some ⟨⟨rfl, fun _ => by simp [Full.wip, Ty.Wf, GArg.Wf, argsWf, pathWf, wipPath]; decide⟩, by simp [hu]⟩
  · rename_i hu
    exact (typeToken_full FieldLegible.paths l (some wipPath) true wip_wf).mono fun _ _ ⟨h1, h2⟩ =>
      ⟨h1, fun _ => h2 fun _ => ⟨by simp, rfl⟩⟩

theorem optionTy_ok {h : Prop} {z : Ty} {y : Rs.Ty} (k : TOk h z y) : TOk h (Full.optionTy z) (Rs.optionTy y) := by
  refine ⟨by simp [Full.optionTy, Rs.optionTy, Ty.erase, eraseArgs, k.1], fun hh => ?_⟩
  exact ⟨pathWf_one (by decide), by simp, k.2 hh, trivial⟩

theorem errorTy_wf : Full.errorTy.Wf := ⟨⟨by simp, by decide⟩, by simp, trivial⟩

theorem resultTy_ok {h : Prop} {z : Ty} {y : Rs.Ty} (k : TOk h z y) : TOk h (Full.resultTy z) (Rs.resultTy y) := by
  refine ⟨by simp [Full.resultTy, Rs.resultTy, Ty.erase, eraseArgs, k.1, Full.errorTy, Rs.errorTy], fun hh => ?_⟩
  exact ⟨pathWf_one (by decide), by simp, k.2 hh, errorTy_wf, trivial⟩

/-! ### Fields of the arguments -/

theorem allow_wf (ty : Ir.Ty) : ∀ a ∈ Full.allowAttr ty, a.Wf := by
  intro a ha
  unfold Full.allowAttr at ha
  split at ha
  · simp only [List.mem_singleton] at ha
    subst ha
    refine ⟨by decide, ?_⟩
    rintro ps ⟨⟩ p hp
    simp only [List.mem_singleton] at hp
    subst hp
    exact ⟨by simp, by decide⟩
  · simp at ha

theorem doc_wf (s : Str) : (Full.docAttr s).Wf := ⟨by simp [Full.docAttr]; decide, by rintro ps ⟨⟩⟩
theorem inline_wf : Full.inlineAttr.Wf := ⟨by simp [Full.inlineAttr]; decide, by rintro ps ⟨⟩⟩
theorem comment_wf (c : Ast.Comment) : ∀ a ∈ Full.comment c, a.Wf := by
  intro a ha
  obtain ⟨l, -, rfl⟩ := List.mem_map.mp ha
  exact doc_wf l

section
variable [FloatText]

omit [FloatText] in
/-- The suffix that the documentation of a default has. -/
theorem doc_suffix (ty : Ir.Ty) : (Quote.typeToken none ty [] [] false).bind Quote.suffix =
    if ty.isUnion then none else (Rs.typeToken none ty none false).bind Rs.suffix := by
  cases ty with
  | builtin b => cases b <;> rfl
  | string => rfl
  | array t =>
    simp only [Quote.typeToken, Rs.typeToken, Ir.Ty.isUnion, Bool.false_eq_true, if_false]
    cases Quote.typeToken none t [] (quote! "butte::ForwardsUOffset") true with
    | none => cases Rs.typeToken none t (some fwdPath) true <;> rfl
    | some c => cases Rs.typeToken none t (some fwdPath) true <;> rfl
  | table q =>
    simp only [Quote.typeToken, Quote.path, Rs.typeToken, Ir.Ty.isUnion, Bool.false_eq_true, if_false]
    cases h : pathTokens (QIdent.relative q none) with
    | none => rfl
    | some p =>
      have := printPath_length (pathTokens_some h).2
      exact suffix_long (by simp; omega)
  | union q e vs =>
    simp only [Quote.typeToken, Quote.path, Ir.Ty.isUnion, if_true]
    cases h : pathTokens (QIdent.relative q none) with
    | none => rfl
    | some p =>
      have := printPath_length (pathTokens_some h).2
      exact suffix_long (by simp)
  | struct q fs =>
    simp only [Quote.typeToken, Quote.path, Rs.typeToken, Ir.Ty.isUnion, Bool.false_eq_true, if_false]
    cases h : pathTokens (QIdent.relative q none) with
    | none => rfl
    | some p => simpa using suffix_path p
  | «enum» q vs b =>
    simp only [Quote.typeToken, Quote.path, Rs.typeToken, Ir.Ty.isUnion, Bool.false_eq_true, if_false]
    cases h : pathTokens (QIdent.relative q none) with
    | none => rfl
    | some p => simpa using suffix_path p

omit [FloatText] in
/-- A number in the documentation. -/
theorem doc_lit (ty : Ir.Ty) (s : Ast.Scalar) (hb : ∀ b, s ≠ .boolean b) : (Quote.typeToken none ty [] [] false).bind (Quote.fmtLit s) =
    if ty.isUnion then none else (Rs.typeToken none ty none false).bind (Rs.fmtLit s) := by
  have key : ∃ k : Str → Option Lit, (∀ ts, Quote.fmtLit s ts = (Quote.suffix ts).bind k) ∧ ∀ y, Rs.fmtLit s y = (Rs.suffix y).bind k := by
    cases s with
    | integer i => exact ⟨_, fun _ => rfl, fun _ => rfl⟩
    | float x => exact ⟨_, fun _ => rfl, fun _ => rfl⟩
    | boolean b => exact absurd rfl (hb b)
  obtain ⟨k, h1, h2⟩ := key
  have h := congrArg (Option.bind · k) (doc_suffix ty)
  simp only [Option.bind_assoc, ← h1] at h
  rw [h]
  split
  · rfl
  · simp only [Option.bind_assoc, ← h2]

theorem defaultText_isSome (ty : Ir.Ty) (d : Ast.DefaultValue) : (Quote.defaultText ty d).isSome = (Rs.defaultDoc ty (some d)).isSome := by
  have key : ∀ s, (∀ b, s ≠ .boolean b) →
      ((Quote.typeToken none ty [] [] false).bind fun t => (Quote.fmtLit s t).bind fun l => some (Quote.litText l)).isSome =
      (if ty.isUnion then none else (Rs.typeToken none ty none false).bind fun t => (Rs.fmtLit s t).bind fun _ => some ()).isSome := by
    intro s hb
    have h := congrArg Option.isSome (doc_lit ty s hb)
    calc _ = ((Quote.typeToken none ty [] [] false).bind (Quote.fmtLit s)).isSome := by
            cases Quote.typeToken none ty [] [] false with
            | none => rfl
            | some t => simp only [Option.bind_some]; cases Quote.fmtLit s t <;> rfl
      _ = _ := h
      _ = _ := by
            split
            · rfl
            · cases Rs.typeToken none ty none false with
              | none => rfl
              | some t => simp only [Option.bind_some]; cases Rs.fmtLit s t <;> rfl
  cases d with
  | ident i => rfl
  | scalar s =>
    cases s with
    | boolean b => rfl
    | integer i => exact key (.integer i) (by simp)
    | float x => exact key (.float x) (by simp)

theorem defaultDoc_agree (ty : Ir.Ty) (d : Option Ast.DefaultValue) :
    Agree (fun as _ => ∀ a ∈ as, Attr.Wf a) (Full.defaultDoc ty d) (Rs.defaultDoc ty d) := by
  cases d with
  | none => exact .some (by simp)
  | some d =>
    have h := defaultText_isSome ty d
    simp only [Full.defaultDoc]
    cases h1 : Quote.defaultText ty d with
    | none =>
      cases h2 : Rs.defaultDoc ty (some d) with
      | none => exact .none
      | some _ => simp [h1, h2] at h
    | some t =>
      cases h2 : Rs.defaultDoc ty (some d) with
      | none => simp [h1, h2] at h
      | some _ => exact .some (by simpa using doc_wf _)

/-- A field agrees with a name and a type. -/
def FieldOk (h : Prop) (z : Field) (y : Str × Rs.Ty) : Prop := (h → z.Wf) ∧ z.name = y.1 ∧ z.ty.erase = some y.2

theorem argField_agree (ns : Option QIdent) (f : Ir.Field) :
    Agree (FieldOk (FieldLegible ns f)) (Full.argField ns f) (Rs.argField ns f) := by
  simp only [Full.argField, Rs.argField]
  refine (argTy_agree ns f c!"a").bind fun z y hz => (defaultDoc_agree f.ty f.default).bind fun as _ ha => .some ?_
  have : TOk (FieldLegible ns f) (if f.required || f.ty.isScalar then z else Full.optionTy z)
      (if f.required || f.ty.isScalar then y else Rs.optionTy y) := by
    split
    · exact hz.1
    · exact optionTy_ok hz.1
  refine ⟨fun h => ⟨?_, h.ident, this.2 h⟩, rfl, this.1⟩
  intro a hm
  rcases List.mem_append.mp hm with hm | hm
  · exact ha a hm
  · exact allow_wf _ a hm

end

/-! ### Defaults -/

/-- An initialiser agrees. -/
def InitOk (h : Prop) (z : Str × Option Expr) (y : Str × Rs.Expr) : Prop :=
  h → nameOk z.1 = true ∧ initWf z.2 ∧ z.1 = y.1 ∧ eraseInit z.1 z.2 = some y.2.forget

theorem isUnion_of_scalar {ty : Ir.Ty} (h : ty.isScalar = true) : ty.isUnion = false := by
  cases ty <;> first | rfl | simp [Ir.Ty.isScalar] at h

theorem argDefaultExpr_agree {ns : Option QIdent} {f : Ir.Field} {z : Ty} {y : Rs.Ty} (hz : TOk (FieldLegible ns f) z y)
    (hs : f.ty.isUnion = false → Quote.suffix z.print = Rs.suffix y) :
    Agree (EOk (FieldLegible ns f)) (Full.argDefaultExpr f z) (Rs.argDefaultExpr f y) := by
  unfold Full.argDefaultExpr Rs.argDefaultExpr
  by_cases hsc : f.ty.isScalar = true
  · have hs := hs (isUnion_of_scalar hsc)
    simp only [hsc, Bool.not_true, Bool.false_eq_true, if_false]
    cases hd : f.default with
    | none =>
      refine .some fun h => ⟨⟨⟨hz.2 h, by simp, by decide⟩, trivial, by simp, trivial⟩, ?_⟩
      simp [Expr.erase, eraseExprs, hz.1, Rs.Expr.forget, Rs.forgets]
    | some d =>
      cases d with
      | ident i =>
        by_cases he : f.ty.isEnum = true
        · simp only [he, if_true]
          cases hi : formatIdent i with
          | none => exact .none
          | some n =>
            refine .some fun h => ⟨⟨hz.2 h, by simp, ?_⟩, by simp [Expr.erase, hz.1, Rs.Expr.forget]⟩
            rw [Gen.formatIdent_eq hi]
            exact h.dflt (isUnion_of_scalar hsc) i hd
        · simp only [he]
          exact .none
      | scalar s =>
        by_cases he : f.ty.isEnum = true
        · simp only [he, if_true]
          exact .none
        · simp only [he, Full.fmtLit, fmtLit_congr hs]
          cases Rs.fmtLit s y with
          | none => exact .none
          | some l => exact .some fun h => ⟨trivial, rfl⟩
  · simp only [hsc, Bool.not_false, if_true]
    exact .some fun h => ⟨v_wf (by decide), rfl⟩

theorem argDefault_agree (ns : Option QIdent) (f : Ir.Field) :
    Agree (InitOk (FieldLegible ns f)) (Full.argDefault ns f) (Rs.argDefault ns f) := by
  simp only [Full.argDefault, Rs.argDefault]
  refine (typeToken_full FieldLegible.paths c!"_" none false (by simp)).bind fun z y ⟨hz, hs⟩ => ?_
  refine (argDefaultExpr_agree hz fun hu => hs (by simp [hu])).bind fun e e' he => .some fun h => ?_
  exact ⟨h.ident, (he h).1, rfl, (he h).2⟩

/-! ### Methods of the builder -/

/-- A function agrees. -/
def FnOk (h : Prop) (z : Fn) (y : Rs.Fn) : Prop := h → z.Wf ∧ z.erase = some y.forget

theorem addBody_agree {n : Str} {ns : Option QIdent} {f : Ir.Field} {z : Ty} {y : Rs.Ty} (hz : TOk (FieldLegible ns f) z y)
    (hs : f.ty.isUnion = false → Quote.suffix z.print = Rs.suffix y) :
    Agree (EOk (nameOk n = true ∧ FieldLegible ns f)) (Full.addBody n f z) (Rs.addBody n f y) := by
  have always : Agree (EOk (nameOk n = true ∧ FieldLegible ns f))
      (some (.method (.field (Full.v c!"self") c!"fbb") c!"push_slot_always" [.ty z] [Full.slotExpr n f, Full.v f.ident]))
      (some (.methodAt (.field (.var c!"self") c!"fbb") c!"push_slot_always" y [Rs.slotExpr n f, .var f.ident])) := by
    refine .some fun h => ⟨⟨⟨self_wf, trivial, by decide⟩, trivial, by decide, ⟨hz.2 h.2, trivial⟩, slot_wf h.1 f, v_wf h.2.ident, trivial⟩, ?_⟩
    simp [Expr.erase, eraseExprs, eraseArgs, hz.1, Rs.Expr.forget, Rs.forgets, slot_erase, v_erase h.2.notNone, v_erase (x := c!"self") (by decide),
      Rs.slotExpr]
  unfold Full.addBody Rs.addBody
  by_cases hsc : f.ty.isScalar = true
  · simp only [hsc, if_true]
    cases hd : f.default with
    | none => exact always
    | some d =>
      refine (defaultValue_agree hz.1 hz.2 (hs (isUnion_of_scalar hsc)) fun i hi h => h.dflt (isUnion_of_scalar hsc) i (hi ▸ hd)).map fun e e' he h => ?_
      refine ⟨⟨⟨self_wf, trivial, by decide⟩, trivial, by decide, ⟨hz.2 h.2, trivial⟩, slot_wf h.1 f, v_wf h.2.ident, (he h.2).1, trivial⟩, ?_⟩
      simp [Expr.erase, eraseExprs, eraseArgs, hz.1, Rs.Expr.forget, Rs.forgets, slot_erase, v_erase h.2.notNone, v_erase (x := c!"self") (by decide),
        Rs.slotExpr, (he h.2).2]
  · simp only [hsc]
    exact always

theorem addMethod_agree (n : Str) (ns : Option QIdent) (f : Ir.Field) :
    Agree (FnOk (nameOk n = true ∧ FieldLegible ns f)) (Full.addMethod n ns f) (Rs.addMethod n ns f) := by
  simp only [Full.addMethod, Rs.addMethod]
  refine (argTy_agree ns f c!"b").bind fun z y ⟨hz, hs⟩ => (addBody_agree hz hs).bind fun e e' he => .some fun h => ⟨?_, ?_⟩
  · refine ⟨?_, addName_ok f, by simp, ?_, by simp, ?_, by simp⟩
    · intro a ha
      rcases List.mem_cons.mp ha with rfl | ha
      · exact inline_wf
      · exact allow_wf _ a ha
    · intro p hp
      simp only [List.mem_cons, List.not_mem_nil, or_false] at hp
      rcases hp with rfl | rfl
      · trivial
      · exact ⟨h.2.ident, hz.2 h.2⟩
    · intro s hs
      simp only [List.mem_cons, List.not_mem_nil, or_false] at hs
      subst hs
      exact (he h).1
  · simp [Fn.erase, Param.erase, hz.1, Stmt.erase, (he h).2, Rs.Fn.forget, Rs.Stmt.forget, Rs.selfParam, Rs.selfTy, Rs.Expr.forget]

/-! ### Accessors -/

theorem slot_forget (n : Str) (f : Ir.Field) : (Rs.slotExpr n f).forget = Rs.slotExpr n f := rfl

theorem self_erase : (Full.v c!"self").erase = some (.var c!"self") := v_erase (by decide)

theorem eraseCall_snoc {u : List Str} (h : u ≠ []) (i : Str) (as : List Rs.Expr) :
    eraseCall (u ++ [i]) [] as = some (.call (.path u) i as) := by
  match u with
  | [] => exact absurd rfl h
  | s :: u =>
    have := splitPath_snoc (p := s :: u) (by simp) i
    unfold eraseCall
    split
    · rename_i heq
      cases heq
    · split
      · simp_all
      · rw [this]; rfl
    · simp_all

theorem erasePath_snoc {u : List Str} (h : u ≠ []) (i : Str) : erasePath (u ++ [i]) = some (.assoc (.path u) i) := by
  match u with
  | [] => exact absurd rfl h
  | s :: u =>
    have := splitPath_snoc (p := s :: u) (by simp) i
    unfold erasePath
    split
    · rename_i heq
      simp at heq
    · rw [this]; rfl

theorem patPath_snoc {u : List Str} (h : u ≠ []) (i : Str) : (Pat.path (u ++ [i])).erase = some (.variant (.path u) i) := by
  have h2 : u ++ [i] ≠ [c!"None"] := by
    intro e
    have := congrArg List.length e
    simp at this
    exact h this
  simp [Pat.erase, h2, splitPath_snoc h]

theorem missing_erase (s : Str) : (Full.missing s).erase = some (Rs.missing s).forget := rfl
theorem missing_wf (s : Str) : (Full.missing s).Wf true :=
  ⟨⟨⟨by simp, by decide⟩, trivial⟩, trivial, by simp, trivial, trivial⟩

theorem get_ok {n : Str} {ns : Option QIdent} {f : Ir.Field} {z : Ty} {y : Rs.Ty} {d : Expr} {d' : Rs.Expr}
    (hz : TOk (FieldLegible ns f) z y) (hd : EOk (FieldLegible ns f) d d') :
    EOk (nameOk n = true ∧ FieldLegible ns f) (Full.getExpr n f z d) (Rs.getExpr n f y d') := by
  refine fun h => ⟨⟨⟨self_wf, trivial, by decide⟩, trivial, by decide, ⟨hz.2 h.2, trivial⟩, slot_wf h.1 f, (hd h.2).1, trivial⟩, ?_⟩
  simp [Full.getExpr, Rs.getExpr, Expr.erase, eraseExprs, eraseArgs, hz.1, Rs.Expr.forget, Rs.forgets, slot_erase, self_erase, slot_forget,
    (hd h.2).2]

/-- An arm agrees. -/
def ArmOk (h : Prop) (z : Pat × Expr) (y : Rs.Pat × Rs.Expr) : Prop :=
  h → z.1.Wf ∧ z.2.Wf true ∧ z.1.erase = some y.1 ∧ z.2.erase = some y.2.forget

/-- What is known of a variant of a union. -/
def VariantLegible (ns : Option QIdent) (x : Ir.UnionVariant) : Prop :=
  nameOk x.ident = true ∧ ∀ q ∈ Gen.tyPaths x.ty, SegsOk (QIdent.relative q ns)

theorem requiredArm_agree {n : Str} {ns : Option QIdent} {f : Ir.Field} {snake : Str} {u e : List Str} (hu : u ≠ []) (he : e ≠ [])
    (x : Ir.UnionVariant) (h : Prop) (hf : h → nameOk n = true) (hus : h → SegsOk u) (hes : h → SegsOk e) (hx : h → VariantLegible ns x) :
    Agree (ArmOk h) (Full.requiredArm n ns f snake u e x) (Rs.requiredArm n ns f snake u e x) := by
  simp only [Full.requiredArm, Rs.requiredArm]
  refine (typeToken_full (h := h) (fun hh => (hx hh).2) c!"_" (some fwdPath) true fwd_wf).bind fun z y ⟨hz, _⟩ => Agree.same fun i hi => .some fun hh => ?_
  rw [Gen.formatIdent_eq hi]
  refine ⟨pathWf_snoc (hes hh) (hx hh).1, ?_, patPath_snoc he _, ?_⟩
  · refine ⟨⟨pathWf_snoc (hus hh) (hx hh).1, trivial⟩, trivial, by simp, ⟨⟨⟨?_, trivial⟩, trivial, by decide, trivial, missing_wf _, trivial⟩, trivial⟩, trivial⟩
    exact ⟨⟨self_wf, trivial, by decide⟩, trivial, by decide, ⟨hz.2 hh, trivial⟩, slot_wf (hf hh) f, v_wf (by decide), trivial⟩
  · simp [Full.getExpr, Rs.getExpr, Expr.erase, eraseExprs, eraseArgs, hz.1, Rs.Expr.forget, Rs.forgets, slot_erase, self_erase, slot_forget,
      missing_erase, none_erase, eraseCall_snoc hu]

theorem optionalArm_agree {n : Str} {ns : Option QIdent} {f : Ir.Field} {u e : List Str} (hu : u ≠ []) (he : e ≠ [])
    (x : Ir.UnionVariant) (h : Prop) (hf : h → nameOk n = true) (hus : h → SegsOk u) (hes : h → SegsOk e) (hx : h → VariantLegible ns x) :
    Agree (ArmOk h) (Full.optionalArm n ns f u e x) (Rs.optionalArm n ns f u e x) := by
  simp only [Full.optionalArm, Rs.optionalArm]
  refine (typeToken_full (h := h) (fun hh => (hx hh).2) c!"_" (some fwdPath) true fwd_wf).bind fun z y ⟨hz, _⟩ => Agree.same fun i hi => .some fun hh => ?_
  rw [Gen.formatIdent_eq hi]
  refine ⟨⟨pathWf_one (by decide), pathWf_snoc (hes hh) (hx hh).1⟩, ?_, ?_, ?_⟩
  · refine ⟨⟨?_, trivial⟩, trivial, by decide, trivial, ⟨pathWf_snoc (hus hh) (hx hh).1, trivial⟩, trivial⟩
    exact ⟨⟨self_wf, trivial, by decide⟩, trivial, by decide, ⟨hz.2 hh, trivial⟩, slot_wf (hf hh) f, v_wf (by decide), trivial⟩
  · simp [Pat.erase.eq_6, patPath_snoc he]
  · simp [Full.getExpr, Rs.getExpr, Expr.erase, eraseExprs, eraseArgs, hz.1, Rs.Expr.forget, Rs.forgets, slot_erase, self_erase, slot_forget,
      none_erase, erasePath_snoc hu]

theorem getDefault_agree {z : Ty} {y : Rs.Ty} {ns : Option QIdent} {f : Ir.Field} (hz : TOk (FieldLegible ns f) z y)
    (hs : Quote.suffix z.print = Rs.suffix y) :
    Agree (EOk (FieldLegible ns f ∧ f.ty.isUnion = false)) (Full.getDefault z f.default) (Rs.getDefault y f.default) := by
  cases hd : f.default with
  | none => exact .some fun _ => ⟨v_wf (by decide), rfl⟩
  | some d =>
    refine (defaultValue_agree (h := FieldLegible ns f ∧ f.ty.isUnion = false) hz.1 (fun h => hz.2 h.1) hs fun i hi h => h.1.dflt h.2 i (hi ▸ hd)).map fun e e' he h => ?_
    refine ⟨⟨v_wf (by decide), trivial, by simp [Full.v], (he h).1, trivial⟩, ?_⟩
    simp [Full.v, Expr.erase, eraseArgs, eraseExprs, (he h).2, eraseCall, Rs.Expr.forget]

theorem lastArm_ok {e : List Str} (he : e ≠ []) (hes : SegsOk e) (r : Bool) (snake : Str) :
    ArmOk True (Full.lastArm r e snake) (if r then (.variant (.path e) c!"None", .ret (.err (Rs.missing snake)))
      else (.or .none (.some (.variant (.path e) c!"None")), .none)) := by
  intro _
  have hp : pathWf (e ++ [c!"None"]) := pathWf_snoc hes (by decide)
  cases r with
  | true =>
    refine ⟨hp, ?_, patPath_snoc he _, ?_⟩
    · exact ⟨v_wf (by decide), trivial, by simp [Full.v], missing_wf _, trivial⟩
    · simp [Full.lastArm, Full.v, Expr.erase, eraseArgs, eraseExprs, missing_erase, eraseCall, Rs.Expr.forget]
  | false =>
    refine ⟨⟨by simp, pathWf_one (by decide), pathWf_one (by decide), hp⟩, v_wf (by decide), ?_, rfl⟩
    simp only [Full.lastArm, Bool.false_eq_true, if_false, Pat.erase.eq_7, Pat.erase.eq_6, patPath_snoc he]
    simp [Pat.erase]

theorem arms_ok {xs : List (Pat × Expr)} {ys : List (Rs.Pat × Rs.Expr)} (h : List.Forall₂ (ArmOk True) xs ys) :
    armsWf xs ∧ eraseArms xs = some (Rs.forgetArms ys) := by
  induction h with
  | nil => exact ⟨trivial, rfl⟩
  | cons h _ ih =>
    obtain ⟨h1, h2, h3, h4⟩ := h trivial
    exact ⟨⟨h1, h2, ih.1⟩, by simp [eraseArms, h3, h4, ih.2, Rs.forgetArms]⟩

theorem unionBody_agree {n : Str} {ns : Option QIdent} {f : Ir.Field} (snake : Str) {q en : QIdent} {vs : List Ir.UnionVariant}
    (hty : f.ty = .union q en vs) :
    Agree (EOk (nameOk n = true ∧ FieldLegible ns f)) (Full.unionBody n ns f snake q en vs) (Rs.unionBody n ns f snake q en vs) := by
  simp only [Full.unionBody, Rs.unionBody]
  refine Agree.same fun u hu => Agree.same fun e he => Agree.same fun tag htag => ?_
  obtain ⟨rfl, hun⟩ := pathTokens_some hu
  obtain ⟨rfl, hen⟩ := pathTokens_some he
  have hus : FieldLegible ns f → SegsOk (QIdent.relative q ns) := fun h => h.paths q (by rw [hty]; simp [Gen.tyPaths])
  have hes : FieldLegible ns f → SegsOk (QIdent.relative en ns) := fun h => (h.union q en vs hty).1
  refine (Agree.mapM (R := fun _ => ArmOk (nameOk n = true ∧ FieldLegible ns f)) fun x hx => ?_).bind fun as bs hab => .some fun h => ?_
  · have hv : nameOk n = true ∧ FieldLegible ns f → VariantLegible ns x := fun h => (h.2.union q en vs hty).2 x hx
    cases f.required
    · exact optionalArm_agree hun hen x _ (·.1) (hus ·.2) (hes ·.2) hv
    · exact requiredArm_agree hun hen x _ (·.1) (hus ·.2) (hes ·.2) hv
  · have := arms_ok (xs := as ++ [Full.lastArm f.required (QIdent.relative en ns) snake]) (ys := bs ++ [_])
      (List.rel_append (hab.imp fun a b ⟨x, _, hr⟩ => fun _ => hr h) (.cons (lastArm_ok hen (hes h.2) f.required snake) .nil))
    rw [Gen.formatIdent_eq htag]
    refine ⟨⟨v_wf (by decide), trivial, by simp [Full.v], ⟨⟨⟨self_wf, trivial, tag_ok _, trivial, trivial⟩, trivial⟩, this.1⟩, trivial⟩, ?_⟩
    simp [Full.v, Expr.erase, eraseArgs, eraseExprs, this.2, eraseCall, Rs.Expr.forget, Rs.forgets, erasePath]

theorem plainBody_ok {n : Str} {ns : Option QIdent} {f : Ir.Field} (snake : Str) {z : Ty} {y : Rs.Ty} {d : Expr} {d' : Rs.Expr}
    (hz : TOk (FieldLegible ns f) z y) (hd : EOk (FieldLegible ns f) d d') :
    EOk (nameOk n = true ∧ FieldLegible ns f) (Full.plainBody n f snake z d) (Rs.plainBody n f snake y d') := by
  have hg := get_ok (n := n) hz hd
  unfold Full.plainBody Rs.plainBody
  split
  · intro h
    refine ⟨⟨⟨(hg h).1, trivial⟩, trivial, by decide, trivial, missing_wf _, trivial⟩, ?_⟩
    simp [Expr.erase, eraseArgs, eraseExprs, (hg h).2, missing_erase, Rs.Expr.forget, Rs.forgets]
  · exact hg

theorem accessorFn_ok {n : Str} {ns : Option QIdent} {f : Ir.Field} {as : List Attr} {ret : Ty} {ret' : Rs.Ty} {body : Expr} {body' : Rs.Expr}
    (ha : ∀ a ∈ as, a.Wf) (hr : TOk (FieldLegible ns f) ret ret') (hb : EOk (nameOk n = true ∧ FieldLegible ns f) body body') :
    FnOk (nameOk n = true ∧ FieldLegible ns f) (Full.accessorFn as f (Heck.snake f.ident) ret body)
      ⟨Heck.snake f.ident, [Rs.selfParam], Rs.resultTy (if f.required then ret' else Rs.optionTy ret'), [], body'⟩ := by
  intro h
  have : TOk (FieldLegible ns f) (Full.resultTy (if f.required then ret else Full.optionTy ret))
      (Rs.resultTy (if f.required then ret' else Rs.optionTy ret')) := by
    refine resultTy_ok ?_
    split
    · exact hr
    · exact optionTy_ok hr
  refine ⟨⟨ha, h.2.snake, by simp [Full.accessorFn], by simp [Full.accessorFn, Param.Wf], ?_, by simp [Full.accessorFn], ?_⟩, ?_⟩
  · rintro t ⟨⟩
    exact this.2 h.2
  · rintro e ⟨⟩
    exact (hb h).1
  · simp [Full.accessorFn, Fn.erase, Param.erase, this.1, (hb h).2, Rs.Fn.forget, Rs.selfParam, Rs.selfTy]

theorem accessor_agree (n : Str) (ns : Option QIdent) (f : Ir.Field) :
    Agree (FnOk (nameOk n = true ∧ FieldLegible ns f)) (Full.accessor n ns f) (Rs.accessor n ns f) := by
  simp only [Full.accessor, Rs.accessor]
  refine Agree.same fun snake hs => ?_
  obtain rfl := Gen.formatIdent_eq hs
  refine (typeToken_full FieldLegible.paths c!"_" (some fwdPath) false fwd_wf).bind fun ret ret' ⟨hr, _⟩ => ?_
  refine (typeToken_full FieldLegible.paths c!"_" (some fwdPath) true fwd_wf).bind fun w w' ⟨hw, hsu⟩ => ?_
  refine (getDefault_agree hw (hsu fun _ => ⟨by simp, rfl⟩)).bind fun d d' hd => ?_
  have inl : ∀ a ∈ [Full.inlineAttr], a.Wf := by simpa using inline_wf
  have att : ∀ a ∈ Full.comment f.doc ++ Full.inlineAttr :: Full.allowAttr f.ty, a.Wf := by
    intro a ha
    rcases List.mem_append.mp ha with ha | ha
    · exact comment_wf _ a ha
    · rcases List.mem_cons.mp ha with rfl | ha
      · exact inline_wf
      · exact allow_wf _ a ha
  unfold Rs.accessorBody
  cases hty : f.ty with
  | union q en vs => exact (unionBody_agree _ hty).bind fun b b' hb => .some (accessorFn_ok inl hr hb)
  | _ => exact .some (hty ▸ accessorFn_ok att hr (plainBody_ok _ hw fun h => hd ⟨h, by rw [hty]; rfl⟩))

/-! ### Items -/

/-- An item agrees. -/
def IOk (h : Prop) (z : Item) (y : Rs.Item) : Prop := h → z.Wf ∧ ∀ path, z.erase path = some [(path, y.forget)]

theorem impl_erase {gs : List GParam} {s : Ty} {s' : Rs.Ty} {bs : List (Str × Ty)} {is : List ImplItem} {cs : List (Str × Fin 65536)}
    {fs : List Rs.Fn} (hs : s.erase = some s') (hc : eraseConsts is = some cs) (hf : eraseFns is = some (fs.map Rs.Fn.forget)) (path : List Str) :
    (Item.impl gs none s bs is).erase path = some [(path, (Rs.Item.impl (typeParams gs) none s' cs fs).forget)] := by
  simp [Item.erase, hs, hc, hf, Rs.Item.forget]

theorem implFor_erase {gs : List GParam} {t s : Ty} {t' s' : Rs.Ty} {bs : List (Str × Ty)} {is : List ImplItem} {cs : List (Str × Fin 65536)}
    {fs : List Rs.Fn} (ht : t.erase = some t') (hs : s.erase = some s') (hc : eraseConsts is = some cs)
    (hf : eraseFns is = some (fs.map Rs.Fn.forget)) (path : List Str) :
    (Item.impl gs (some t) s bs is).erase path = some [(path, (Rs.Item.impl (typeParams gs) (some t') s' cs fs).forget)] := by
  simp [Item.erase, ht, hs, hc, hf, Rs.Item.forget]

theorem eraseFns_map {fs : List Fn} {gs : List Rs.Fn} (h : List.Forall₂ (FnOk True) fs gs) {is : List ImplItem} {hs : List Rs.Fn}
    (hi : eraseFns is = some (hs.map Rs.Fn.forget)) : eraseFns (fs.map .fn ++ is) = some ((gs ++ hs).map Rs.Fn.forget) := by
  induction h with
  | nil => exact hi
  | cons h _ ih => simp [eraseFns, (h trivial).2, ih]

theorem eraseConsts_map (fs : List Fn) (is : List ImplItem) : eraseConsts (fs.map .fn ++ is) = eraseConsts is := by
  induction fs with
  | nil => rfl
  | cons f fs ih => simpa [eraseConsts] using ih

theorem fns_wf {fs : List Fn} {gs : List Rs.Fn} (h : List.Forall₂ (FnOk True) fs gs) : ∀ i ∈ fs.map ImplItem.fn, i.Wf := by
  induction h with
  | nil => simp
  | cons h _ ih =>
    intro i hi
    rcases List.mem_cons.mp hi with rfl | hi
    · exact (h trivial).1
    · exact ih i hi

theorem attrs_wf (ns : List Str) (h : ∀ n ∈ ns, nameOk n = true) : (Full.deriveAttr ns).Wf := by
  refine ⟨by simp only [Full.deriveAttr]; decide, ?_⟩
  rintro ps ⟨⟩ p hp
  obtain ⟨n, hn, rfl⟩ := List.mem_map.mp hp
  exact pathWf_one (h n hn)

theorem B_wf : (Full.word c!"B").Wf := word_wf (by decide)
theorem tableB_wf : Full.tableB.Wf := ⟨⟨by simp, by decide⟩, by simp, B_wf, trivial⟩
theorem selfTy_wf : Full.selfTy.Wf := ⟨⟨by simp, by decide⟩, by simp, trivial⟩
theorem ofB_wf {n : Str} (h : nameOk n = true) : (Full.ofB n).Wf := ⟨pathWf_one h, by simp, B_wf, trivial⟩
theorem ofBytes_wf {n : Str} (h : nameOk n = true) (l : Option Str) : (Full.ofBytes n l).Wf := ⟨pathWf_one h, by simp, bytes_wf l, trivial⟩
theorem usize_wf : (Full.word c!"usize").Wf := word_wf (by decide)
theorem fbbTy_wf (l m : Str) : (Full.fbbTy l m).Wf := ⟨⟨by simp, by decide⟩, by simp, trivial, trivial⟩
theorem wipTy_wf {t : Ty} (h : t.Wf) : (Full.wip t).Wf := ⟨⟨by simp [wipPath], by decide⟩, by simp, h, trivial⟩
theorem asRef_wf : ∀ b ∈ Full.asRef, nameOk b.1 = true ∧ b.2.Wf := by
  simp only [Full.asRef, List.mem_singleton, forall_eq]
  exact ⟨by decide, ⟨by simp, by decide⟩, by simp, word_wf (s := c!"u8") (by decide), trivial⟩
theorem selfTable_wf : Full.selfTable.Wf true := ⟨rfl, ⟨by simp, by decide⟩, by decide, trivial, trivial⟩
theorem ok_wf {e : Expr} (h : e.Wf true) : (Full.ok e).Wf true := ⟨v_wf (by decide), trivial, by simp [Full.v], h, trivial⟩
theorem newTable_wf : Full.newTable.Wf :=
  ⟨by decide, ⟨⟨by simp, by decide⟩, trivial⟩, trivial, by simp, v_wf (by decide), v_wf (by decide), trivial⟩
theorem inner_wf : Full.innerResult.Wf :=
  ⟨pathWf_one (by decide), by simp, ⟨⟨by simp, by decide⟩, by simp, trivial⟩, errorTy_wf, trivial⟩
theorem followTy_wf : Full.followTy.Wf := ⟨⟨by simp, by decide⟩, by simp, trivial, trivial⟩

theorem tableStruct_ok (n : Str) (doc : Ast.Comment) : IOk (nameOk n = true) (Full.tableStruct n doc) (Rs.tableStruct n) := by
  refine fun h => ⟨⟨?_, h, ?_, ?_, by simp⟩, fun path => rfl⟩
  · intro a ha
    rcases List.mem_cons.mp ha with rfl | ha
    · exact attrs_wf _ (by decide)
    · exact comment_wf _ a ha
  · simp only [List.mem_singleton, forall_eq, GParam.Wf]; decide
  · simp only [List.mem_singleton, forall_eq]
    exact ⟨by simp, by decide, tableB_wf⟩

theorem fn_wf {as : List Attr} {p : Bool} {n : Str} {gs : List GParam} {ps : List Param} {r : Option Ty} {b : List Stmt} {e : Option Expr}
    (ha : ∀ a ∈ as, a.Wf) (hn : nameOk n = true) (hg : ∀ g ∈ gs, g.Wf) (hp : ∀ p ∈ ps, p.Wf) (hr : ∀ t ∈ r, t.Wf) (hb : ∀ s ∈ b, s.Wf)
    (he : ∀ x ∈ e, x.Wf true) : (Fn.mk as p n gs ps r b e).Wf := ⟨ha, hn, hg, hp, hr, hb, he⟩

theorem tyB_wf : ∀ g ∈ [GParam.ty c!"B"], g.Wf := by simp only [List.mem_singleton, forall_eq, GParam.Wf]; decide
theorem lifeA_wf : ∀ g ∈ [GParam.life c!"a" none], g.Wf := by simp [GParam.Wf]

theorem tableFrom_ok (n : Str) : IOk (nameOk n = true) (Full.tableFrom n) (Rs.tableFrom n) := by
  refine fun h => ⟨⟨tyB_wf, ?_, ofB_wf h, by simp, by simp, ?_⟩, fun path => rfl⟩
  · rintro t ⟨⟩
    exact ⟨pathWf_one (by decide), by simp, tableB_wf, trivial⟩
  · simp only [List.mem_singleton, forall_eq]
    refine fn_wf (by simp) (by decide) (by simp) ?_ (by rintro t ⟨⟩; exact selfTy_wf) (by simp) (by rintro t ⟨⟩; exact selfTable_wf)
    simp only [List.mem_singleton, forall_eq]
    exact ⟨by decide, tableB_wf⟩

theorem tableInto_ok (n : Str) : IOk (nameOk n = true) (Full.tableInto n) (Rs.tableInto n) := by
  refine fun h => ⟨⟨tyB_wf, ?_, tableB_wf, by simp, by simp, ?_⟩, fun path => rfl⟩
  · rintro t ⟨⟩
    exact ⟨pathWf_one (by decide), by simp, ofB_wf h, trivial⟩
  · simp only [List.mem_singleton, forall_eq]
    refine fn_wf (by simp) (by decide) (by simp) ?_ (by rintro t ⟨⟩; exact selfTy_wf) (by simp) ?_
    · simp only [List.mem_singleton, forall_eq]
      exact ⟨by decide, ofB_wf h⟩
    · rintro t ⟨⟩
      exact ⟨v_wf (by decide), trivial, by decide⟩

/-- A statement agrees. -/
def StmtOk (h : Prop) (z : Stmt) (y : Rs.Stmt) : Prop := h → z.Wf ∧ z.erase = some y.forget

theorem addCall_ok (ns : Option QIdent) (f : Ir.Field) : StmtOk (FieldLegible ns f) (Full.addCall f) (Rs.addCall f) := by
  intro h
  have ha : ∀ b, (Expr.field (Full.v c!"args") f.ident).Wf b := fun b => ⟨v_wf (by decide), trivial, h.ident⟩
  unfold Full.addCall Rs.addCall
  simp only
  split
  · refine ⟨⟨v_wf (by decide), trivial, addName_ok f, trivial, ha true, trivial⟩, ?_⟩
    simp [Stmt.erase, Expr.erase, eraseArgs, eraseExprs, v_erase (x := c!"args") (by decide), v_erase (x := c!"builder") (by decide),
      Rs.Stmt.forget, Rs.Expr.forget, Rs.forgets]
  · refine ⟨⟨⟨pathWf_one (by decide), pathWf_one (by decide)⟩, ha false, v_wf (by decide), trivial, addName_ok f, trivial, v_wf (by decide), trivial⟩, ?_⟩
    simp [Stmt.erase, Expr.erase, eraseArgs, eraseExprs, v_erase (x := c!"args") (by decide), v_erase (x := c!"builder") (by decide),
      v_erase (x := c!"x") (by decide), Rs.Stmt.forget, Rs.Expr.forget, Rs.forgets]

theorem stmts_ok {ι : Type} {z : ι → Stmt} {y : ι → Rs.Stmt} {xs : List ι} (h : ∀ x ∈ xs, StmtOk True (z x) (y x)) :
    (∀ s ∈ xs.map z, s.Wf) ∧ (xs.map z).mapM Stmt.erase = some ((xs.map y).map Rs.Stmt.forget) := by
  induction xs with
  | nil => exact ⟨by simp, rfl⟩
  | cons x xs ih =>
    obtain ⟨h1, h2⟩ := h x (by simp) trivial
    obtain ⟨h3, h4⟩ := ih fun y hy => h y (by simp [hy])
    refine ⟨?_, by simp only [List.map_cons, List.mapM_cons, h2, h4]; rfl⟩
    intro s hs
    rcases List.mem_cons.mp hs with rfl | hs
    · exact h1
    · exact h3 s hs

theorem argsTy_ok {n : Str} (fs : List Ir.Field) (l : Str) : TOk True (Full.argsTy n fs l) (.path [n ++ c!"Args"]) := by
  unfold Full.argsTy
  cases Full.hasLife fs
  · exact ⟨rfl, fun _ => ⟨pathWf_one (args_ok n), fun _ => rfl, trivial⟩⟩
  · exact ⟨rfl, fun _ => ⟨pathWf_one (args_ok n), by simp, trivial, trivial⟩⟩

theorem argsGenerics_wf (fs : List Ir.Field) : ∀ g ∈ Full.argsGenerics fs, g.Wf := by
  unfold Full.argsGenerics
  split
  · exact lifeA_wf
  · simp

theorem argsGenerics_types (fs : List Ir.Field) : typeParams (Full.argsGenerics fs) = [] := by
  unfold Full.argsGenerics
  split <;> rfl

/-- The names of a table can be read back. -/
structure TableLegible (t : Ir.Table) : Prop where
  name : nameOk (QIdent.simple t.ident) = true
  fields : ∀ f ∈ t.fields, FieldLegible (QIdent.namespace t.ident) f

theorem create_ok {n : Str} {ns : Option QIdent} {fs : List Ir.Field} (hn : nameOk n = true) (h : ∀ f ∈ fs, FieldLegible ns f) :
    FnOk True (Full.createFn n fs) (Rs.createFn n fs) := by
  intro _
  have hs := stmts_ok (z := Full.addCall) (y := Rs.addCall) fun f hf _ => addCall_ok ns f (h f hf)
  refine ⟨fn_wf (by simp) (by decide) (by simp [GParam.Wf]) ?_ ?_ ?_ ?_, ?_⟩
  · simp only [List.mem_cons, List.not_mem_nil, or_false, forall_eq_or_imp, forall_eq]
    exact ⟨⟨by decide, fbbTy_wf _ _⟩, by decide, (argsTy_ok fs c!"args").2 trivial⟩
  · rintro t ⟨⟩
    exact wipTy_wf (ofBytes_wf hn _)
  · intro s hm
    rcases List.mem_cons.mp hm with rfl | hm
    · exact ⟨by decide, ⟨⟨by simp, by simp [segOk_of (builder_ok n)]; decide⟩, trivial⟩, trivial, by simp, v_wf (by decide), trivial⟩
    · exact hs.1 s hm
  · rintro e ⟨⟩
    exact ⟨v_wf (by decide), trivial, by decide, trivial, trivial⟩
  · have h1 : (Full.argsTy n fs c!"args").erase = _ := (argsTy_ok fs c!"args").1
    simp only [Full.createFn, Fn.erase, List.mapM_cons, hs.2, Param.erase, Ty.erase, h1]
    rfl

/-- The constants of slots. -/
def ConstOk (z : ImplItem) (y : Str × Fin 65536) : Prop :=
  nameOk y.1 = true ∧ z = .const true y.1 (.path [c!"butte", c!"VOffsetT"] false []) (.int y.2.val c!"u16")

theorem slotConst_agree (gm : Mode) (i : Nat) (f : Ir.Field) : Agree ConstOk (Full.slotConst gm i f) (Rs.slotConst gm i f) := by
  simp only [Full.slotConst, Rs.slotConst]
  exact Agree.same fun s _ => .some ⟨offsetId_ok f, rfl⟩

theorem consts_ok {zs : List ImplItem} {ys : List (Str × Fin 65536)} (h : List.Forall₂ ConstOk zs ys) {is : List ImplItem}
    (hi : eraseConsts is = some []) :
    (∀ z ∈ zs, z.Wf) ∧ eraseConsts (zs ++ is) = some ys ∧ eraseFns (zs ++ is) = eraseFns is := by
  induction h with
  | nil => exact ⟨by simp, hi, rfl⟩
  | @cons z y zs ys h _ ih =>
    obtain ⟨hn, rfl⟩ := h
    refine ⟨?_, ?_, by simpa [eraseFns] using ih.2.2⟩
    · intro z hz
      rcases List.mem_cons.mp hz with rfl | hz
      · exact ⟨hn, ⟨by simp, by decide⟩, by simp, trivial⟩
      · exact ih.1 z hz
    · have : ((y.2.val : Int)).toNat = y.2.val := Int.toNat_natCast _
      simp [eraseConsts, ih.2.1, this]

theorem tableCreate_ok {n : Str} {ns : Option QIdent} {fs : List Ir.Field} (hn : nameOk n = true) (h : ∀ f ∈ fs, FieldLegible ns f)
    {zs : List ImplItem} {ys : List (Str × Fin 65536)} (hc : List.Forall₂ ConstOk zs ys) :
    IOk True (Full.tableCreate n zs fs) (Rs.tableCreate n ys fs) := by
  intro _
  have hf := create_ok hn h trivial
  have := consts_ok hc (is := [.fn (Full.createFn n fs)]) rfl
  refine ⟨⟨lifeA_wf, by simp, ofBytes_wf hn _, by simp, by simp, ?_⟩, ?_⟩
  · intro i hi
    rcases List.mem_append.mp hi with hi | hi
    · exact this.1 i hi
    · rw [List.mem_singleton.mp hi]; exact hf.1
  · exact impl_erase rfl this.2.1 (this.2.2.trans (by simp [eraseFns, hf.2]))

theorem getRoot_ok : FnOk True Full.getRootFn Rs.getRootFn := by
  intro _
  refine ⟨fn_wf (by simp) (by decide) (by simp) ?_ ?_ ?_ ?_, rfl⟩
  · simp only [List.mem_singleton, forall_eq]
    exact ⟨by decide, B_wf⟩
  · rintro t ⟨⟩
    exact ⟨pathWf_one (by decide), by simp, selfTy_wf, errorTy_wf, trivial⟩
  · simp only [List.mem_singleton, forall_eq]
    exact ⟨by decide, ⟨⟨⟨by simp, by decide⟩, trivial⟩, trivial, by simp, v_wf (by decide), trivial⟩, trivial⟩
  · rintro e ⟨⟩
    exact ok_wf selfTable_wf

theorem tableAccess_ok {n : Str} (hn : nameOk n = true) {zs : List Fn} {ys : List Rs.Fn} (h : List.Forall₂ (FnOk True) zs ys) :
    IOk True (Full.tableAccess n zs) (Rs.tableAccess n ys) := by
  intro _
  have hf := getRoot_ok trivial
  refine ⟨⟨tyB_wf, by simp, ofB_wf hn, asRef_wf, by simp [Full.asRef], ?_⟩, ?_⟩
  · intro i hi
    rcases List.mem_append.mp hi with hi | hi
    · exact fns_wf h i hi
    · rw [List.mem_singleton.mp hi]; exact hf.1
  · exact impl_erase rfl (by rw [eraseConsts_map]; rfl) (eraseFns_map h (hs := [Rs.getRootFn]) (by simp [eraseFns, hf.2]))

theorem tableFollow_ok (n : Str) : IOk (nameOk n = true) (Full.tableFollow n) (Rs.tableFollow n) := by
  refine fun h => ⟨⟨lifeA_wf, ?_, ofBytes_wf h _, by simp, by simp, ?_⟩, fun path => rfl⟩
  · rintro t ⟨⟩
    exact followTy_wf
  · simp only [List.mem_cons, List.not_mem_nil, or_false, forall_eq_or_imp, forall_eq]
    refine ⟨⟨by decide, selfTy_wf⟩, fn_wf ?_ (by decide) (by simp) ?_ ?_ ?_ ?_⟩
    · simpa using inline_wf
    · simp only [List.mem_cons, List.not_mem_nil, or_false, forall_eq_or_imp, forall_eq]
      exact ⟨⟨by decide, bytes_wf _⟩, by decide, usize_wf⟩
    · rintro t ⟨⟩
      exact inner_wf
    · simpa using newTable_wf
    · rintro e ⟨⟩
      exact ok_wf selfTable_wf

theorem tableFollowBuf_ok (n : Str) : IOk (nameOk n = true) (Full.tableFollowBuf n) (Rs.tableFollowBuf n) := by
  refine fun h => ⟨⟨tyB_wf, ?_, ofB_wf h, asRef_wf, by simp [Full.asRef], ?_⟩, fun path => rfl⟩
  · rintro t ⟨⟩
    exact ⟨⟨by simp, by decide⟩, by simp, trivial⟩
  · simp only [List.mem_cons, List.not_mem_nil, or_false, forall_eq_or_imp, forall_eq]
    refine ⟨⟨by decide, B_wf⟩, ⟨by decide, selfTy_wf⟩, fn_wf ?_ (by decide) (by simp) ?_ ?_ ?_ ?_⟩
    · simpa using inline_wf
    · simp only [List.mem_cons, List.not_mem_nil, or_false, forall_eq_or_imp, forall_eq]
      exact ⟨⟨by decide, ⟨by simp, by decide⟩, by simp, trivial⟩, by decide, usize_wf⟩
    · rintro t ⟨⟩
      exact inner_wf
    · simpa using newTable_wf
    · rintro e ⟨⟩
      exact ok_wf selfTable_wf

theorem argsStruct_ok (n : Str) (fs : List Ir.Field) {zs : List Field} {ys : List (Str × Rs.Ty)} (h : List.Forall₂ (FieldOk True) zs ys) :
    IOk True (Full.argsStruct n fs zs) (.struct (n ++ c!"Args") [] ys) := by
  intro _
  have : (∀ z ∈ zs, z.Wf) ∧ (zs.mapM fun f => do return (f.name, ← f.ty.erase)) = some ys := by
    induction h with
    | nil => exact ⟨by simp, rfl⟩
    | cons h _ ih =>
      refine ⟨?_, by simp [List.mapM_cons, h.2.1, h.2.2] at ih ⊢; simp [ih.2]⟩
      intro z hz
      rcases List.mem_cons.mp hz with rfl | hz
      · exact h.1 trivial
      · exact ih.1 z hz
  refine ⟨⟨by simp, args_ok n, argsGenerics_wf fs, this.1, by simp⟩, fun path => ?_⟩
  simp only [Full.argsStruct, Item.erase, this.2, argsGenerics_types]
  rfl

theorem argsDefault_ok (n : Str) (fs : List Ir.Field) {zs : List (Str × Option Expr)} {ys : List (Str × Rs.Expr)}
    (h : List.Forall₂ (InitOk True) zs ys) : IOk True (Full.argsDefault n fs zs) (Rs.argsDefault n ys) := by
  intro _
  have : initsWf zs ∧ eraseInits zs = some (Rs.forgetInits ys) := by
    induction h with
    | nil => exact ⟨trivial, rfl⟩
    | cons h _ ih =>
      obtain ⟨h1, h2, h3, h4⟩ := h trivial
      exact ⟨⟨h1, h2, ih.1⟩, by simp [eraseInits, h4, ih.2, Rs.forgetInits]; exact h3⟩
  refine ⟨⟨argsGenerics_wf fs, ?_, (argsTy_ok fs _).2 trivial, by simp, by simp, ?_⟩, ?_⟩
  · rintro t ⟨⟩
    exact word_wf (by decide)
  · simp only [List.mem_singleton, forall_eq]
    refine fn_wf (by simp) (by decide) (by simp) (by simp) (by rintro t ⟨⟩; exact selfTy_wf) (by simp) ?_
    rintro e ⟨⟩
    exact ⟨rfl, ⟨by simp, by decide⟩, this.1⟩
  · intro path
    have h1 : (Full.argsTy n fs c!"a").erase = _ := (argsTy_ok fs _).1
    simp [Full.argsDefault, Rs.argsDefault, Item.erase, argsGenerics_types, h1, eraseConsts, eraseFns, Fn.erase, Expr.erase, this.2,
      Rs.defaultFn, Rs.Item.forget, Rs.Fn.forget, Rs.Expr.forget, Full.selfTy, Rs.selfTy, word_erase]

theorem builderStruct_ok (n : Str) : IOk True (Full.builderStruct n) (Rs.builderStruct n) := by
  refine fun _ => ⟨⟨by simp, builder_ok n, by simp [GParam.Wf], ?_, by simp⟩, fun path => rfl⟩
  simp only [List.mem_cons, List.not_mem_nil, or_false, forall_eq_or_imp, forall_eq]
  exact ⟨⟨by simp, by decide, fbbTy_wf _ _⟩, by simp, by decide, wipTy_wf ⟨⟨by simp, by decide⟩, by simp, trivial⟩⟩

theorem new_ok (n : Str) : FnOk True (Full.newFn n) (Rs.newFn n) := by
  refine fun _ => ⟨fn_wf (by simpa using inline_wf) (by decide) (by simp) ?_ ?_ ?_ ?_, rfl⟩
  · simp only [List.mem_singleton, forall_eq]
    exact ⟨by decide, fbbTy_wf _ _⟩
  · rintro t ⟨⟩
    exact selfTy_wf
  · simp only [List.mem_singleton, forall_eq]
    exact ⟨by decide, v_wf (by decide), trivial, by decide, trivial, trivial⟩
  · rintro e ⟨⟩
    exact ⟨rfl, pathWf_one (builder_ok n), by decide, trivial, by decide, trivial, trivial⟩

theorem requiredCheck_ok {n : Str} (hn : nameOk n = true) (f : Ir.Field) : StmtOk True (Full.requiredCheck n f)
    (.expr (.method (.field (.var c!"self") c!"fbb") c!"required" [.var c!"o", Rs.slotExpr n f, .lit (.str (Heck.snake f.ident))])) := by
  refine fun _ => ⟨⟨⟨self_wf, trivial, by decide⟩, trivial, by decide, trivial, v_wf (by decide), slot_wf hn f, trivial, trivial⟩, rfl⟩

theorem finish_ok {n : Str} (hn : nameOk n = true) (fs : List Ir.Field) : FnOk True (Full.finishFn n fs) (Rs.finishFn n fs) := by
  have hs := stmts_ok (z := Full.requiredCheck n) (xs := fs.filter (·.required)) fun f _ => requiredCheck_ok hn f
  refine fun _ => ⟨fn_wf (by simpa using inline_wf) (by decide) (by simp) (by simp [Param.Wf]) ?_ ?_ ?_, ?_⟩
  · rintro t ⟨⟩
    exact wipTy_wf (ofBytes_wf hn _)
  · intro s hm
    rcases List.mem_cons.mp hm with rfl | hm
    · exact ⟨by decide, ⟨self_wf, trivial, by decide⟩, trivial, by decide, trivial, ⟨self_wf, trivial, by decide⟩, trivial⟩
    · exact hs.1 s hm
  · rintro e ⟨⟩
    exact ⟨⟨⟨by simp, by decide⟩, trivial⟩, trivial, by simp, ⟨v_wf (by decide), trivial, by decide, trivial, trivial⟩, trivial⟩
  · simp only [Full.finishFn, Fn.erase, List.mapM_cons, hs.2]
    rfl

theorem builderImpl_ok {n : Str} (hn : nameOk n = true) (fs : List Ir.Field) {zs : List Fn} {ys : List Rs.Fn}
    (h : List.Forall₂ (FnOk True) zs ys) : IOk True (Full.builderImpl n zs fs) (Rs.builderImpl n ys fs) := by
  intro _
  have h1 := new_ok n trivial
  have h2 := finish_ok hn fs trivial
  refine ⟨⟨by simp [GParam.Wf], by simp, ⟨pathWf_one (builder_ok n), by simp, trivial, trivial, trivial⟩, by simp, by simp, ?_⟩, ?_⟩
  · intro i hi
    rcases List.mem_append.mp hi with hi | hi
    · exact fns_wf h i hi
    · simp only [List.mem_cons, List.not_mem_nil, or_false] at hi
      rcases hi with rfl | rfl
      · exact h1.1
      · exact h2.1
  · exact impl_erase rfl (by rw [eraseConsts_map]; rfl)
      (eraseFns_map h (hs := [Rs.newFn n, Rs.finishFn n fs]) (by simp [eraseFns, h1.2, h2.2]))

/-- Items agree. -/
def IsOk (h : Prop) (zs : List Item) (ys : List Rs.Item) : Prop :=
  h → itemsWf zs ∧ ∀ path, eraseItems path zs = some ((ys.map (path, ·)).map fun x => (x.1, x.2.forget))

theorem items_ok {zs : List Item} {ys : List Rs.Item} (h : List.Forall₂ (IOk True) zs ys) : IsOk True zs ys := by
  intro _
  induction h with
  | nil => exact ⟨trivial, fun _ => rfl⟩
  | cons h _ ih => exact ⟨⟨(h trivial).1, ih.1⟩, fun path => by simp [eraseItems, (h trivial).2 path, ih.2 path]⟩

theorem forall₂_true {ι α β : Type} {xs : List ι} {R : Prop → α → β → Prop} {H : ι → Prop} {as : List α} {bs : List β}
    (hm : ∀ {p a b}, R p a b → p → R True a b) (h : List.Forall₂ (fun a b => ∃ x ∈ xs, R (H x) a b) as bs) (hh : ∀ x ∈ xs, H x) :
    List.Forall₂ (R True) as bs := h.imp fun _ _ ⟨x, hx, hr⟩ => hm hr (hh x hx)

theorem defaultItems_agree [FloatText] (n : Str) (ns : Option QIdent) (fs : List Ir.Field) :
    Agree (fun zs ys => (∀ f ∈ fs, FieldLegible ns f) → List.Forall₂ (IOk True) zs ys) (Full.defaultItems n ns fs) (Rs.defaultItems n ns fs) := by
  unfold Full.defaultItems Rs.defaultItems
  split
  · exact (Agree.mapM fun f _ => argDefault_agree ns f).map fun zs ys hz h =>
      .cons (argsDefault_ok n fs (forall₂_true (R := InitOk) (fun hr hp _ => hr hp) hz h)) .nil
  · exact .some fun _ => .nil

theorem table_agree [FloatText] (gm : Mode) (t : Ir.Table) : Agree (IsOk (TableLegible t)) (Full.table gm t) (Rs.emitTable gm t) := by
  simp only [Full.table, Rs.emitTable]
  refine Agree.same fun n hn => Agree.same fun _ _ => ?_
  refine (Agree.mapM fun f _ => argField_agree _ f).bind fun args args' ha => ?_
  refine (defaultItems_agree n _ t.fields).bind fun ds ds' hd => ?_
  refine (Agree.mapM fun f _ => addMethod_agree n _ f).bind fun adds adds' hadd => ?_
  refine (Agree.mapM (R := fun _ => ConstOk) fun x _ => slotConst_agree gm x.2 x.1).bind fun cs cs' hc => ?_
  refine (Agree.mapM fun f _ => accessor_agree n _ f).bind fun accs accs' hacc => .some fun h => ?_
  have hnm : nameOk n = true := by rw [Gen.formatIdent_eq hn]; exact h.name
  have fm : ∀ {p a b}, FnOk p a b → p → FnOk True a b := fun hr hp _ => hr hp
  have hfs : ∀ f ∈ t.fields, nameOk n = true ∧ FieldLegible (QIdent.namespace t.ident) f := fun f hf => ⟨hnm, h.fields f hf⟩
  refine items_ok (List.rel_append (List.rel_append ?_ (hd h.fields)) ?_) trivial
  · refine .cons (fun _ => tableStruct_ok n t.doc hnm) (.cons (fun _ => tableFrom_ok n hnm) (.cons (fun _ => tableInto_ok n hnm)
      (.cons (tableCreate_ok hnm h.fields (hc.imp fun _ _ ⟨_, _, hr⟩ => hr)) (.cons (tableAccess_ok hnm (forall₂_true fm hacc hfs))
        (.cons (fun _ => tableFollow_ok n hnm) (.cons (fun _ => tableFollowBuf_ok n hnm) (.cons (argsStruct_ok n t.fields ?_) .nil)))))))
    exact forall₂_true (R := FieldOk) (fun hr hp => ⟨fun _ => hr.1 hp, hr.2⟩) ha h.fields
  · exact .cons (builderStruct_ok n) (.cons (builderImpl_ok hnm t.fields (forall₂_true fm hadd hfs)) .nil)

/-! ### Enums -/

/-- The names of an enum can be read back. -/
structure EnumLegible (e : Ir.Enum) : Prop where
  name : nameOk (QIdent.simple e.ident) = true
  variants : ∀ v ∈ e.variants, nameOk v.ident = true

theorem base_ok (b : Ir.EnumBase) : nameOk (Rs.baseName b) = true := by cases b <;> decide

/-- A variant agrees. -/
def VOk (h : Prop) (z : Str × Lit × Ast.Comment) (y : Str × Lit) : Prop := (h → nameOk z.1 = true) ∧ y = (z.1, z.2.1)

theorem variantLit_agree (base : Str) (x : Ir.EnumVariant × Nat) :
    Agree (VOk (nameOk x.1.ident = true)) (Full.variantLit base x) (Rs.variantLit base x) := by
  simp only [Full.variantLit, Rs.variantLit]
  refine Agree.same fun i hi => .some ⟨fun h => ?_, rfl⟩
  rw [Gen.formatIdent_eq hi]
  exact h

theorem variants_eq {zs : List (Str × Lit × Ast.Comment)} {ys : List (Str × Lit)} (h : List.Forall₂ (VOk True) zs ys) :
    (∀ z ∈ zs, nameOk z.1 = true) ∧ ys = zs.map fun z => (z.1, z.2.1) := by
  induction h with
  | nil => exact ⟨by simp, rfl⟩
  | cons h _ ih =>
    refine ⟨?_, by simp [h.2, ih.2]⟩
    intro z hz
    rcases List.mem_cons.mp hz with rfl | hz
    · exact h.1 trivial
    · exact ih.1 z hz

section
variable {n base : Str} {vs : List (Str × Lit × Ast.Comment)}

theorem listAttr_wf {n : Str} {ps : List (List Str)} (hn : nameOk n = true) (h : ∀ p ∈ ps, pathWf p) : (Attr.mk n (.list ps)).Wf := by
  refine ⟨hn, ?_⟩
  rintro ps ⟨⟩
  exact h

theorem mapM_some {α β : Type} {f : α → Option β} {g : α → β} : ∀ {xs : List α}, (∀ x ∈ xs, f x = some (g x)) → xs.mapM f = some (xs.map g)
  | [], _ => rfl
  | x :: xs, h => by
    simp only [List.mapM_cons, h x (by simp), mapM_some fun y hy => h y (List.mem_cons_of_mem _ hy)]
    rfl

theorem enumItem_ok (hn : nameOk n = true) (hb : nameOk base = true) (hv : ∀ z ∈ vs, nameOk z.1 = true) (doc : Ast.Comment) :
    IOk True (Full.enumItem n base doc vs) (.enum n base (vs.map fun z => (z.1, z.2.1))) := by
  intro _
  refine ⟨⟨?_, hn, by simp, ?_⟩, ?_⟩
  · intro a ha
    rcases List.mem_append.mp ha with ha | ha
    · simp only [List.mem_cons, List.not_mem_nil, or_false] at ha
      rcases ha with rfl | rfl | rfl
      · exact listAttr_wf (by decide) (by simpa using pathWf_one hb)
      · exact listAttr_wf (by decide) (by simp only [List.mem_singleton, forall_eq]; exact pathWf_one (by decide))
      · exact attrs_wf _ (by decide)
    · exact comment_wf _ a ha
  · intro v hm
    obtain ⟨z, hz, rfl⟩ := List.mem_map.mp hm
    exact ⟨comment_wf _, hv z hz, by rintro t ⟨⟩⟩
  · intro path
    have h : (vs.map fun x => (⟨Full.comment x.2.2, x.1, .value x.2.1⟩ : Variant)).mapM Variant.eraseValue =
        some (vs.map fun z => (z.1, z.2.1)) := by
      rw [mapM_some (g := fun v => (v.name, match v.payload with | .value l => l | _ => .bool true))]
      · simp
      · intro v hm
        obtain ⟨z, _, rfl⟩ := List.mem_map.mp hm
        rfl
    simp only [Full.enumItem, Item.erase, List.cons_append, reprOf, if_true, h]
    rfl

theorem enumDefault_ok (hn : nameOk n = true) (hv : ∀ z ∈ vs, nameOk z.1 = true) :
    IOk True (Full.enumDefault n vs) (Rs.enumDefault n (vs.map fun z => (z.1, z.2.1))) := by
  refine fun _ => ⟨⟨by simp, ?_, word_wf hn, by simp, by simp, ?_⟩, fun path => ?_⟩
  · rintro t ⟨⟩
    exact word_wf (by decide)
  · simp only [List.mem_singleton, forall_eq]
    refine fn_wf (by simp) (by decide) (by simp) (by simp) (by rintro t ⟨⟩; exact selfTy_wf) (by simp) ?_
    intro e he
    cases vs with
    | nil => cases he
    | cons v vs =>
      cases he
      exact ⟨pathWf_snoc (p := [n]) (by simpa [SegsOk] using segOk_of hn) (hv v (by simp)), trivial⟩
  · cases vs <;> rfl

theorem tryFrom_wf (hb : nameOk base = true) : (Full.tryFromTy base).Wf :=
  ⟨⟨by simp, by decide⟩, by simp, word_wf hb, trivial⟩

theorem enumFollow_ok (hn : nameOk n = true) (hb : nameOk base = true) : IOk True (Full.enumFollow n base) (Rs.enumFollow n base) := by
  refine fun h => ⟨⟨lifeA_wf, ?_, word_wf hn, by simp, by simp, ?_⟩, fun path => rfl⟩
  · rintro t ⟨⟩
    exact followTy_wf
  · simp only [List.mem_cons, List.not_mem_nil, or_false, forall_eq_or_imp, forall_eq]
    refine ⟨⟨by decide, selfTy_wf⟩, fn_wf (by simp) (by decide) (by simp) ?_ ?_ ?_ ?_⟩
    · simp only [List.mem_cons, List.not_mem_nil, or_false, forall_eq_or_imp, forall_eq]
      exact ⟨⟨by decide, bytes_wf _⟩, by decide, usize_wf⟩
    · rintro t ⟨⟩
      exact inner_wf
    · simp only [List.mem_singleton, forall_eq]
      exact ⟨by decide, ⟨⟨⟨by simp, by decide⟩, word_wf hb, trivial⟩, trivial, by simp, v_wf (by decide), v_wf (by decide), trivial⟩, trivial⟩
    · rintro e ⟨⟩
      exact ⟨⟨selfTy_wf, by rintro x ⟨⟩; exact tryFrom_wf hb, by decide⟩, trivial, by simp, v_wf (by decide), trivial⟩

/-- The arms of a `match` that are written for each variant. -/
theorem armsMap_ok {ι : Type} {z : ι → Pat × Expr} {y : ι → Rs.Pat × Rs.Expr} {xs : List ι} (h : ∀ x ∈ xs, ArmOk True (z x) (y x)) :
    List.Forall₂ (ArmOk True) (xs.map z) (xs.map y) := by
  induction xs with
  | nil => exact .nil
  | cons x xs ih => exact .cons (h x (by simp)) (ih fun y hy => h y (by simp [hy]))

theorem match_ok {x : Str} (hx : nameOk x = true) (hN : x ≠ c!"None") {zs : List (Pat × Expr)} {ys : List (Rs.Pat × Rs.Expr)}
    (h : List.Forall₂ (ArmOk True) zs ys) : EOk True (.match (Full.v x) zs) (.match (.var x) ys) := by
  intro _
  have := arms_ok h
  exact ⟨⟨v_wf hx, this.1⟩, by simp [Expr.erase, v_erase hN, this.2, Rs.Expr.forget]⟩

theorem enumTryFrom_ok (hn : nameOk n = true) (hb : nameOk base = true) (hv : ∀ z ∈ vs, nameOk z.1 = true) :
    IOk True (Full.enumTryFrom n base vs) (Rs.enumTryFrom n base (vs.map fun z => (z.1, z.2.1))) := by
  have hl : ArmOk True (Pat.wild, Expr.call (Full.v c!"Err") [.path [c!"butte", c!"Error", c!"UnknownEnumVariant"] []])
      (Rs.Pat.wild, .err (.assoc Rs.errorTy c!"UnknownEnumVariant")) :=
    fun _ => ⟨trivial, ⟨v_wf (by decide), trivial, by simp [Full.v], ⟨⟨by simp, by decide⟩, trivial⟩, trivial⟩, rfl, rfl⟩
  have harms := match_ok (x := c!"value") (by decide) (by decide) (List.rel_append
    (armsMap_ok (z := fun x : Str × Lit × Ast.Comment => (Pat.lit x.2.1, Full.ok (.qpath (Full.word n) none x.1)))
      (y := fun x => (Rs.Pat.lit x.2.1, .ok (.assoc (.path [n]) x.1))) (xs := vs) fun x hx _ =>
        ⟨trivial, ok_wf ⟨word_wf hn, by simp, hv x hx⟩, rfl, rfl⟩)
    (.cons hl .nil)) trivial
  refine fun _ => ⟨⟨by simp, ?_, word_wf hn, by simp, by simp, ?_⟩, ?_⟩
  · rintro t ⟨⟩
    exact tryFrom_wf hb
  · simp only [List.mem_cons, List.not_mem_nil, or_false, forall_eq_or_imp, forall_eq]
    refine ⟨⟨by decide, errorTy_wf⟩, fn_wf (by simp) (by decide) (by simp) ?_ ?_ (by simp) ?_⟩
    · simp only [List.mem_singleton, forall_eq]
      exact ⟨by decide, word_wf hb⟩
    · rintro t ⟨⟩
      exact ⟨pathWf_one (by decide), by simp, selfTy_wf, ⟨⟨by simp, by decide⟩, by simp, trivial⟩, trivial⟩
    · rintro e ⟨⟩
      exact harms.1
  · refine implFor_erase rfl rfl rfl ?_
    simp only [eraseFns, Fn.erase, harms.2, Rs.enumTryFromFn, List.map_map]
    rfl

theorem enumInto_ok (hn : nameOk n = true) (hb : nameOk base = true) (hv : ∀ z ∈ vs, nameOk z.1 = true) :
    IOk True (Full.enumInto n base vs) (Rs.enumInto n base (vs.map fun z => (z.1, z.2.1))) := by
  have harms := match_ok (x := c!"value") (by decide) (by decide)
    (armsMap_ok (z := fun x : Str × Lit × Ast.Comment => (Pat.qpath (Full.word n) x.1, .lit x.2.1))
      (y := fun x => (Rs.Pat.variant (.path [n]) x.1, .lit x.2.1)) (xs := vs) fun x hx _ =>
        ⟨⟨word_wf hn, hv x hx⟩, trivial, rfl, rfl⟩) trivial
  refine fun _ => ⟨⟨by simp, ?_, word_wf hb, by simp, by simp, ?_⟩, ?_⟩
  · rintro t ⟨⟩
    exact ⟨pathWf_one (by decide), by simp, word_wf hn, trivial⟩
  · simp only [List.mem_singleton, forall_eq]
    refine fn_wf (by simp) (by decide) (by simp) ?_ ?_ (by simp) ?_
    · simp only [List.mem_singleton, forall_eq]
      exact ⟨by decide, word_wf hn⟩
    · rintro t ⟨⟩
      exact word_wf hb
    · rintro e ⟨⟩
      exact harms.1
  · refine implFor_erase rfl rfl rfl ?_
    simp only [eraseFns, Fn.erase, harms.2, Rs.enumIntoFn, List.map_map]
    rfl

theorem enumPush_ok (hn : nameOk n = true) (hb : nameOk base = true) : IOk True (Full.enumPush n base) (Rs.enumPush n base) := by
  refine fun h => ⟨⟨by simp, ?_, word_wf hn, by simp, by simp, ?_⟩, fun path => rfl⟩
  · rintro t ⟨⟩
    exact ⟨⟨by simp, by decide⟩, by simp, trivial⟩
  · simp only [List.mem_cons, List.not_mem_nil, or_false, forall_eq_or_imp, forall_eq]
    refine ⟨⟨by decide, selfTy_wf⟩, fn_wf (by simpa using inline_wf) (by decide) (by simp) ?_ (by simp) ?_ (by simp)⟩
    · simp only [List.mem_cons, List.not_mem_nil, or_false, forall_eq_or_imp, forall_eq]
      exact ⟨trivial, ⟨by decide, word_wf (s := c!"u8") (by decide)⟩, by decide, bytes_wf _⟩
    · simp only [List.mem_cons, List.not_mem_nil, or_false, forall_eq_or_imp, forall_eq]
      exact ⟨⟨by decide, ⟨word_wf hb, by simp, by decide⟩, trivial, by simp, self_wf (b := true), trivial⟩,
        ⟨⟨by simp, by decide⟩, word_wf hb, trivial⟩, trivial, by simp, v_wf (by decide), v_wf (by decide), trivial⟩

theorem enumName_ok' (hn : nameOk n = true) (hv : ∀ z ∈ vs, nameOk z.1 = true) :
    IOk True (Full.enumName n vs) (.fn (Rs.enumNameFn n (vs.map fun z => (z.1, z.2.1)))) := by
  have harms := match_ok (x := c!"e") (by decide) (by decide)
    (armsMap_ok (z := fun x : Str × Lit × Ast.Comment => (Pat.path [n, x.1], .lit (.str x.1)))
      (y := fun x => (Rs.Pat.variant (.path [n]) x.1, .lit (.str x.1))) (xs := vs) fun x hx _ =>
        ⟨pathWf_snoc (p := [n]) (by simpa [SegsOk] using segOk_of hn) (hv x hx), trivial, patPath_snoc (u := [n]) (by simp) _, rfl⟩) trivial
  refine fun _ => ⟨fn_wf (by simp) (enumName_ok _) (by simp) ?_ ?_ (by simp) ?_, fun path => ?_⟩
  · simp only [List.mem_singleton, forall_eq]
    exact ⟨by decide, word_wf hn⟩
  · rintro t ⟨⟩
    exact word_wf (s := c!"str") (by decide)
  · rintro e ⟨⟩
    exact harms.1
  · simp only [Full.enumName, Item.erase, Fn.erase, harms.2, Rs.enumNameFn, List.map_map]
    rfl

end

theorem enum_agree (e : Ir.Enum) : Agree (IsOk (EnumLegible e)) (Full.enum e) (Rs.emitEnum e) := by
  simp only [Full.enum, Rs.emitEnum]
  refine Agree.same fun n hn => (Agree.mapM fun x _ => variantLit_agree _ x).bind fun zs ys hz => .some fun h => ?_
  have hnm : nameOk n = true := by rw [Gen.formatIdent_eq hn]; exact h.name
  have hb := base_ok e.base
  have hx : ∀ x ∈ e.variants.zipIdx, nameOk x.1.ident = true := fun x hx => h.variants x.1 (List.fst_mem_of_mem_zipIdx hx)
  obtain ⟨hv, rfl⟩ := variants_eq (forall₂_true (R := VOk) (fun hr hp => ⟨fun _ => hr.1 hp, hr.2⟩) hz hx)
  exact items_ok (.cons (enumItem_ok hnm hb hv e.doc) (.cons (enumDefault_ok hnm hv) (.cons (enumFollow_ok hnm hb)
    (.cons (enumTryFrom_ok hnm hb hv) (.cons (enumInto_ok hnm hb hv) (.cons (enumPush_ok hnm hb) (.cons (enumName_ok' hnm hv) .nil))))))) trivial

/-! ### Unions -/

/-- The names of a union can be read back. -/
structure UnionLegible (u : Ir.Union) : Prop where
  name : nameOk (QIdent.simple u.ident) = true
  tag : SegsOk (QIdent.relative u.enumIdent (QIdent.namespace u.ident))
  variants : ∀ v ∈ u.variants, VariantLegible (QIdent.namespace u.ident) v

/-- A variant of a union agrees. -/
def UOk (h : Prop) (z : Variant) (y : Str × Rs.Ty) : Prop := (h → z.Wf) ∧ z.eraseTuple = some y

theorem unionVariant_agree (ns : Option QIdent) (x : Ir.UnionVariant) :
    Agree (fun z y => UOk (VariantLegible ns x) z y ∧ y.1 = x.ident) (Full.unionVariant ns x) (Rs.unionVariant ns x) := by
  simp only [Full.unionVariant, Rs.unionVariant]
  cases hi : formatIdent x.ident with
  | none => cases Rs.typeToken ns x.ty none false <;> exact .none
  | some i =>
    refine (typeToken_full (h := VariantLegible ns x) (·.2) c!"a" none false (by simp)).bind fun z y ⟨hz, _⟩ => ?_
    refine .some ⟨⟨fun h => ⟨comment_wf _, ?_, ?_⟩, ?_⟩, Gen.formatIdent_eq hi⟩
    · rw [show i = x.ident from Gen.formatIdent_eq hi]
      exact h.1
    · rintro t ⟨⟩
      exact hz.2 h
    · simp [Variant.eraseTuple, hz.1]

/-- Traversals keep the order. -/
theorem Agree.mapM' {ι α β : Type} {R : ι → α → β → Prop} {f : ι → Option α} {g : ι → Option β} : ∀ {xs : List ι},
    (∀ x ∈ xs, Agree (R x) (f x) (g x)) →
    Agree (fun as bs => List.Forall₂ (fun a b => ∃ x ∈ xs, R x a b) as bs ∧ List.Forall₂ (fun x b => ∃ a, R x a b) xs bs) (xs.mapM f) (xs.mapM g)
  | [], _ => .some ⟨.nil, .nil⟩
  | x :: xs, h => by
    have ih := Agree.mapM' (xs := xs) fun y hy => h y (by simp [hy])
    simp only [List.mapM_cons, Option.bind_eq_bind]
    refine (h x (by simp)).bind fun a b hab => ih.bind fun as bs hs => .some ⟨.cons ⟨x, by simp, hab⟩ ?_, .cons ⟨a, hab⟩ hs.2⟩
    exact hs.1.imp fun a b ⟨y, hy, hr⟩ => ⟨y, by simp [hy], hr⟩

theorem unionItem_ok {n : Str} (hn : nameOk n = true) (doc : Ast.Comment) {zs : List Variant} {ys : List (Str × Rs.Ty)}
    (h : List.Forall₂ (UOk True) zs ys) : IOk True (Full.unionItem n doc zs) (.union n ys) := by
  intro _
  have : (∀ z ∈ zs, z.Wf) ∧ zs.mapM Variant.eraseTuple = some ys := by
    induction h with
    | nil => exact ⟨by simp, rfl⟩
    | cons h _ ih =>
      refine ⟨?_, by simp [List.mapM_cons, h.2, ih.2]⟩
      intro z hz
      rcases List.mem_cons.mp hz with rfl | hz
      · exact h.1 trivial
      · exact ih.1 z hz
  refine ⟨⟨?_, hn, lifeA_wf, this.1⟩, fun path => ?_⟩
  · intro a ha
    rcases List.mem_cons.mp ha with rfl | ha
    · exact attrs_wf _ (by decide)
    · exact comment_wf _ a ha
  · have hr : reprOf (Full.deriveAttr [c!"Copy", c!"Clone", c!"Debug", c!"PartialEq"] :: Full.comment doc) = none := by
      simp only [Full.deriveAttr, List.map_cons, List.map_nil, reprOf, Full.comment]
      induction doc with
      | nil => rfl
      | cons l ls ih => exact ih
    simp only [Full.unionItem, Item.erase, hr, this.2]
    rfl

theorem unionImpl_ok {n : Str} {e : List Str} {vs : List Ir.UnionVariant} (hn : nameOk n = true) (he : e ≠ []) (hes : SegsOk e)
    (hv : ∀ v ∈ vs, nameOk v.ident = true) {ys : List (Str × Rs.Ty)} (h : ys.map Prod.fst = vs.map (·.ident)) :
    IOk True (Full.unionImpl n e vs) (.impl [] none (.path [n]) [] [Rs.getTypeFn n e ys]) := by
  have hm := armsMap_ok (z := fun x : Ir.UnionVariant => (Pat.rest [n, x.ident], .path (e ++ [x.ident]) []))
    (y := fun x => (Rs.Pat.tuple (.path [n]) x.ident, .assoc (.path e) x.ident)) (xs := vs) fun x hx _ => by
      refine ⟨pathWf_snoc (p := [n]) (by simpa [SegsOk] using segOk_of hn) (hv x hx), ⟨pathWf_snoc hes (hv x hx), trivial⟩, rfl, ?_⟩
      simp [Expr.erase, erasePath_snoc he, Rs.Expr.forget]
  have := arms_ok hm
  have hb : (Expr.match (Full.v c!"self") (vs.map fun x => (Pat.rest [n, x.ident], .path (e ++ [x.ident]) []))).erase =
      some (Rs.getTypeFn n e ys).value.forget := by
    have h2 : (ys.map fun v => (Rs.Pat.tuple (.path [n]) v.1, Rs.Expr.assoc (.path e) v.1)) =
        vs.map fun x => (Rs.Pat.tuple (.path [n]) x.ident, .assoc (.path e) x.ident) := by
      have := congrArg (List.map fun s => (Rs.Pat.tuple (.path [n]) s, Rs.Expr.assoc (.path e) s)) h
      simpa only [List.map_map, Function.comp_def] using this
    simp [Expr.erase, self_erase, this.2, Rs.getTypeFn, h2, Rs.Expr.forget]
  refine fun _ => ⟨⟨by simp, by simp, ⟨pathWf_one hn, by simp, trivial, trivial⟩, by simp, by simp, ?_⟩, ?_⟩
  · simp only [List.mem_singleton, forall_eq]
    refine fn_wf (by simp) (by decide) (by simp) (by simp [Param.Wf]) ?_ (by simp) ?_
    · rintro t ⟨⟩
      exact ⟨⟨he, hes⟩, by simp, trivial⟩
    · rintro x ⟨⟩
      exact ⟨self_wf, this.1⟩
  · refine impl_erase rfl rfl ?_
    simp only [eraseFns, Fn.erase, hb]
    rfl

theorem union_agree (u : Ir.Union) : Agree (IsOk (UnionLegible u)) (Full.union u) (Rs.emitUnion u) := by
  simp only [Full.union, Rs.emitUnion]
  refine Agree.same fun n hn => Agree.same fun e he => (Agree.mapM' fun x _ => unionVariant_agree _ x).bind fun zs ys hz => .some fun h => ?_
  have hnm : nameOk n = true := by rw [Gen.formatIdent_eq hn]; exact h.name
  obtain ⟨rfl, hen⟩ := pathTokens_some he
  have h1 : List.Forall₂ (UOk True) zs ys := hz.1.imp fun a b ⟨x, hx, hr⟩ => ⟨fun _ => hr.1.1 (h.variants x hx), hr.1.2⟩
  have h2 : ys.map Prod.fst = u.variants.map (·.ident) := by
    have := hz.2
    clear h1 hz
    revert this
    generalize u.variants = vs
    intro this
    induction this with
    | nil => rfl
    | cons hab _ ih =>
      obtain ⟨a, _, hab⟩ := hab
      simp [hab, ih]
  exact items_ok (.cons (unionItem_ok hnm u.doc h1) (.cons (unionImpl_ok hnm hen h.tag (fun v hv => (h.variants v hv).1) h2) .nil)) trivial

/-! ### Programs -/

mutual
/-- The names of a node can be read back. -/
def NodeLegible : Ir.Node → Prop
  | .table t => TableLegible t
  | .enum e => EnumLegible e
  | .union u => UnionLegible u
  | .namespace i ns => nameOk (Heck.snake (QIdent.simple i)) = true ∧ Legible ns
  | .struct _ | .rpc _ => True
/-- All names of a program can be read back. -/
def Legible : List Ir.Node → Prop
  | [] => True
  | n :: ns => NodeLegible n ∧ Legible ns
end

theorem eraseItems_append {path : List Str} : ∀ {as bs : List Item} {P Q : Rs.Program}, eraseItems path as = some P → eraseItems path bs = some Q →
    eraseItems path (as ++ bs) = some (P ++ Q)
  | [], _, _, _, h1, h2 => by cases h1; exact h2
  | a :: as, bs, P, Q, h1, h2 => by
    simp only [eraseItems, Option.bind_eq_bind, Option.bind_eq_some_iff, pure, Option.some.injEq] at h1
    obtain ⟨x, hx, y, hy, rfl⟩ := h1
    simp [eraseItems, hx, eraseItems_append hy h2]

theorem itemsWf_append : ∀ {as bs : List Item}, itemsWf as → itemsWf bs → itemsWf (as ++ bs)
  | [], _, _, h => h
  | _ :: _, _, h1, h2 => ⟨h1.1, itemsWf_append h1.2 h2⟩

/-- A program agrees, in a module. -/
def POk (h : Prop) (path : List Str) (zs : List Item) (P : Rs.Program) : Prop :=
  h → itemsWf zs ∧ eraseItems path zs = some P.forget

theorem forget_append (P Q : Rs.Program) : Rs.Program.forget (P ++ Q) = P.forget ++ Q.forget := by simp [Rs.Program.forget]

mutual
theorem node_agree [FloatText] (gm : Mode) : ∀ (n : Ir.Node) (path : List Str),
    Agree (POk (NodeLegible n) path) (Full.node gm n) (Rs.emitNode gm path n)
  | .table t, path => by
    have : Full.node gm (.table t) = (Full.table gm t).bind some := by simp [Full.node]
    rw [this, Rs.emitNode]
    exact (table_agree gm t).bind fun zs ys h => .some fun hh => ⟨(h hh).1, (h hh).2 path⟩
  | .struct s, path => by simp only [Full.node, Rs.emitNode]; exact .none
  | .enum e, path => by
    have : Full.node gm (.enum e) = (Full.enum e).bind some := by simp [Full.node]
    rw [this, Rs.emitNode]
    exact (enum_agree e).bind fun zs ys h => .some fun hh => ⟨(h hh).1, (h hh).2 path⟩
  | .union u, path => by
    have : Full.node gm (.union u) = (Full.union u).bind some := by simp [Full.node]
    rw [this, Rs.emitNode]
    exact (union_agree u).bind fun zs ys h => .some fun hh => ⟨(h hh).1, (h hh).2 path⟩
  | .rpc r, path => by simp only [Full.node, Rs.emitNode]; exact .some fun _ => ⟨trivial, rfl⟩
  | .namespace i ns, path => by
    simp only [Full.node, Rs.emitNode]
    refine Agree.same fun m hm => (nodes_agree gm ns (path ++ [m])).bind fun zs P h => .some fun hh => ?_
    simp only [NodeLegible] at hh
    obtain ⟨h1, h2⟩ := h hh.2
    obtain rfl := Gen.formatIdent_eq hm
    refine ⟨⟨⟨hh.1, h1⟩, trivial⟩, ?_⟩
    simp [eraseItems, Item.erase, h2, Rs.Program.forget, Rs.Item.forget]
theorem nodes_agree [FloatText] (gm : Mode) : ∀ (ns : List Ir.Node) (path : List Str),
    Agree (POk (Legible ns) path) (Full.nodes gm ns) (Rs.emitNodes gm path ns)
  | [], path => by simp only [Full.nodes, Rs.emitNodes]; exact .some fun _ => ⟨trivial, rfl⟩
  | n :: ns, path => by
    simp only [Full.nodes, Rs.emitNodes]
    refine (node_agree gm n path).bind fun a P ha => (nodes_agree gm ns path).bind fun b Q hb => .some fun hh => ?_
    simp only [Legible] at hh
    obtain ⟨h1, h2⟩ := ha hh.1
    obtain ⟨h3, h4⟩ := hb hh.2
    exact ⟨itemsWf_append h1 h3, by rw [forget_append]; exact eraseItems_append h2 h4⟩
end

end Butte.Src
