import Verif.Src.Full
/-
The tokens of the trees of `Src/Full.lean` are the generated ones.
-/
namespace Butte.Src
open Ir (QIdent)
open Gen (formatIdent)
open Rs (pathTokens Lit fwdPath vectorPath wipPath)

@[simp] theorem toks_str (s : Str) : ToTokens.toks s = [Tok.ident s] := rfl
@[simp] theorem toks_toks (t : Toks) : ToTokens.toks t = t := rfl

theorem pathTokens_some {q : QIdent} {p : List Str} (h : pathTokens q = some p) : p = q ∧ p ≠ [] := by
  unfold pathTokens at h
  split at h
  · cases h
  · rename_i hn
    cases h
    exact ⟨rfl, fun e => hn (.inl e)⟩

theorem printPath_snoc : ∀ {p : List Str} (n : Str), p ≠ [] → printPath (p ++ [n]) = printPath p ++ [.punct .colon2, .ident n]
  | [], _, h => absurd rfl h
  | [s], n, _ => rfl
  | s :: t :: p, n, _ => by
    have := printPath_snoc (p := t :: p) n (by simp)
    simp only [List.cons_append, printPath] at this ⊢
    rw [this]

theorem printPath_ne : ∀ {p : List Str}, p ≠ [] → printPath p ≠ []
  | [], h => absurd rfl h
  | [_], _ => by simp [printPath]
  | _ :: _ :: _, _ => by simp [printPath]

/-- Mapping over the results of a traversal. -/
theorem mapM_map {α β γ : Type} (f : α → Option β) (g : β → γ) : ∀ xs : List α,
    xs.mapM (fun x => (f x).map g) = (xs.mapM f).map (List.map g)
  | [] => rfl
  | x :: xs => by
    simp only [List.mapM_cons, mapM_map f g xs]
    cases f x <;> simp
    cases xs.mapM f <;> simp

theorem mapM_eq {α β γ : Type} {f : α → Option γ} {h : α → Option β} {g : β → γ} {xs : List α}
    (he : ∀ x ∈ xs, f x = (h x).map g) : xs.mapM f = (xs.mapM h).map (List.map g) := by
  rw [← mapM_map]
  induction xs with
  | nil => rfl
  | cons x xs ih =>
    simp only [List.mapM_cons, he x (by simp), ih fun y hy => he y (by simp [hy])]

namespace Quote

theorem builtin_eq (b : Ast.Builtin) : builtin b = [.ident (Rs.builtinName b)] := by cases b <;> rfl

theorem enumBase_eq (b : Ir.EnumBase) : enumBase b = [.ident (Rs.baseName b)] := by cases b <;> rfl

/-- The tokens to wrap with. -/
def wrapToks : Option (List Str) → Toks
  | some w => printPath w
  | none => []

theorem refLifetime_eq (l : Str) : refLifetime [.life l] = printLife (Full.refLife l) := by
  simp only [refLifetime, Full.refLife]
  split <;> rfl

theorem wrapped_print {w : Option (List Str)} (hw : ∀ p ∈ w, p ≠ []) (o : Bool) (t : Ty) :
    (Full.wrapped w o t).print = if (wrapToks w).isEmpty || !o then t.print else
      wrapToks w ++ .punct .colon2 :: .punct .lt :: (t.print ++ [.punct .gt]) := by
  cases w with
  | none => simp [Full.wrapped, wrapToks]
  | some p =>
    have := printPath_ne (hw p rfl)
    cases o <;> simp [Full.wrapped, wrapToks, this, Ty.print, printArgs, GArg.print]

theorem typeToken_eq (ns : Option QIdent) : ∀ (ty : Ir.Ty) (l : Str) (w : Option (List Str)) (o : Bool), (∀ p ∈ w, p ≠ []) →
    typeToken ns ty [.life l] (wrapToks w) o = (Full.typeToken ns ty l w o).map Ty.print
  | .builtin b, l, w, o, _ => by simp [typeToken, Full.typeToken, builtin_eq, Full.word, Ty.print, printPath]
  | .string, l, w, o, hw => by
    simp only [typeToken, Full.typeToken, Option.map_some, wrapped_print hw, refLifetime_eq]
    split <;> simp [Ty.print, Full.word, printPath, printWord]
  | .array t, l, w, o, hw => by
    have := typeToken_eq ns t l (some fwdPath) true (by simp [fwdPath])
    simp only [typeToken, Full.typeToken]
    rw [show (quote! "butte::ForwardsUOffset") = wrapToks (some fwdPath) from rfl, this]
    cases Full.typeToken ns t l (some fwdPath) true with
    | none => rfl
    | some c =>
      simp only [Option.map_some, Option.bind_eq_bind, Option.bind_some, wrapped_print hw, pure]
      split <;> simp [Ty.print, printPath, printArgs, GArg.print, vectorPath]
  | .table q, l, w, o, hw => by
    simp only [typeToken, Full.typeToken, path]
    cases pathTokens (QIdent.relative q ns) with
    | none => rfl
    | some p =>
      simp only [Option.map_some, Option.bind_eq_bind, Option.bind_some, wrapped_print hw, pure, refLifetime_eq]
      split <;> simp [Ty.print, printPath, printArgs, GArg.print, Full.bytes, Full.word, printWord]
  | .union q _ _, l, w, o, hw => by
    simp only [typeToken, Full.typeToken, path]
    cases pathTokens (QIdent.relative q ns) with
    | none => rfl
    | some p =>
      simp only [Option.map_some, Option.bind_eq_bind, Option.bind_some, wrapped_print hw, pure]
      split <;> simp [Ty.print, printArgs, GArg.print]
  | .struct q _, l, w, o, _ => by
    simp only [typeToken, Full.typeToken, path]
    cases pathTokens (QIdent.relative q ns) with
    | none => rfl
    | some p => simp [Ty.print]
  | .enum q _ _, l, w, o, _ => by
    simp only [typeToken, Full.typeToken, path]
    cases pathTokens (QIdent.relative q ns) with
    | none => rfl
    | some p => simp [Ty.print]

/-- Without a lifetime: the same for scalars. -/
theorem typeToken_scalar (ns : Option QIdent) {ty : Ir.Ty} (h : ty.isScalar = true) (l : Str) :
    typeToken ns ty [] [] false = (Full.typeToken ns ty l none false).map Ty.print := by
  rw [← typeToken_eq ns ty l none false (by simp)]
  cases ty <;> simp [Ir.Ty.isScalar] at h <;> rfl

/-- Without a lifetime: defined or not as with one. -/
theorem typeToken_isSome (ns : Option QIdent) : ∀ (ty : Ir.Ty) (l : Toks) (l' : Str) (w : Toks) (w' : Option (List Str)) (o o' : Bool),
    (typeToken ns ty l w o).isSome = (Full.typeToken ns ty l' w' o').isSome
  | .builtin b, l, l', w, w', o, o' => by simp [typeToken, Full.typeToken]
  | .string, l, l', w, w', o, o' => by simp [typeToken, Full.typeToken]
  | .array t, l, l', w, w', o, o' => by
    have := typeToken_isSome ns t l l' (quote! "butte::ForwardsUOffset") (some fwdPath) true true
    simp only [typeToken, Full.typeToken]
    revert this
    cases typeToken ns t l (quote! "butte::ForwardsUOffset") true <;> cases Full.typeToken ns t l' (some fwdPath) true <;> simp
  | .table q, l, l', w, w', o, o' => by
    simp only [typeToken, Full.typeToken, path]
    cases pathTokens (QIdent.relative q ns) <;> simp
  | .union q _ _, l, l', w, w', o, o' => by
    simp only [typeToken, Full.typeToken, path]
    cases pathTokens (QIdent.relative q ns) <;> simp
  | .struct q _, l, l', w, w', o, o' => by
    simp only [typeToken, Full.typeToken, path]
    cases pathTokens (QIdent.relative q ns) <;> simp
  | .enum q _ _, l, l', w, w', o, o' => by
    simp only [typeToken, Full.typeToken, path]
    cases pathTokens (QIdent.relative q ns) <;> simp

theorem defaultValue_eq (t : Ty) (d : Ast.DefaultValue) : defaultValue t.print d = (Full.defaultValue t d).map Expr.print := by
  cases d with
  | scalar s =>
    simp only [defaultValue, Full.defaultValue, Full.fmtLit]
    cases fmtLit s t.print <;> simp [Expr.print]
  | ident i =>
    simp only [defaultValue, Full.defaultValue]
    cases formatIdent i <;> simp [Expr.print, printAs]

theorem printAttrs_append (as bs : List Attr) : printAttrs (as ++ bs) = printAttrs as ++ printAttrs bs := by simp [printAttrs]
theorem printAttrs_cons (a : Attr) (as : List Attr) : printAttrs (a :: as) = a.print ++ printAttrs as := by simp [printAttrs]
@[simp] theorem printAttrs_nil : printAttrs [] = [] := rfl

theorem docAttr_print (l : Str) : (Full.docAttr l).print =
    [.punct .hash, .opn .bracket, .ident c!"doc", .punct .eq, .str l, .cls .bracket] := rfl

theorem comment_eq (lines : Ast.Comment) : comment lines = printAttrs (Full.comment lines) := by
  unfold comment
  rw [List.foldl_reverse]
  induction lines with
  | nil => rfl
  | cons l ls ih =>
    rw [List.foldr_cons, ih]
    simp [Full.comment, printAttrs_cons, docAttr_print]

theorem allow_eq (ty : Ir.Ty) : allowTypeComplexity ty = printAttrs (Full.allowAttr ty) := by
  simp only [allowTypeComplexity, Full.allowAttr]
  split <;> rfl

theorem defaultValueDoc_eq [FloatText] (ty : Ir.Ty) (d : Option Ast.DefaultValue) :
    defaultValueDoc ty d = (Full.defaultDoc ty d).map printAttrs := by
  cases d with
  | none => rfl
  | some d =>
    simp only [defaultValueDoc, Full.defaultDoc]
    cases defaultText ty d <;> simp [printAttrs_cons, docAttr_print]

theorem v_print (x : Str) : (Full.v x).print = [.ident x] := rfl

theorem builderAddCall_eq (f : Ir.Field) : builderAddCall f = (Full.addCall f).print := by
  simp only [builderAddCall, Full.addCall]
  split <;> simp [Stmt.print, Expr.print, v_print, printTurbofish, printExprs, Pat.print, printPath, Rs.addName]

theorem argTy_eq (ns : Option QIdent) (ty : Ir.Ty) (l : Str) : argTy ns ty [.life l] = (Full.argTy ns ty l).map Ty.print := by
  simp only [argTy, Full.argTy]
  split
  · rfl
  · exact typeToken_eq ns ty l (some wipPath) true (by simp [wipPath])

theorem argsField_eq [FloatText] (ns : Option QIdent) (f : Ir.Field) :
    argsField ns f = (Full.argField ns f).map Field.print := by
  simp only [argsField, Full.argField, argTy_eq, defaultValueDoc_eq, allow_eq]
  cases Full.argTy ns f.ty c!"a" with
  | none => rfl
  | some t =>
    cases Full.defaultDoc f.ty f.default with
    | none => rfl
    | some d =>
      simp only [Option.map_some, Option.bind_eq_bind, Option.bind_some, pure, Field.print, printAttrs_append]
      split <;> simp [printWord, Full.optionTy, Ty.print, printPath, GArg.print, printArgs]

theorem argsFieldDefault_eq (ns : Option QIdent) (f : Ir.Field) :
    argsFieldDefault ns f = (Full.argDefault ns f).map fun x => .ident x.1 :: printInit x.2 := by
  simp only [argsFieldDefault, Full.argDefault, Full.argDefaultExpr]
  by_cases hs : f.ty.isScalar = true
  · simp only [hs, Bool.not_true, Bool.false_eq_true, if_false, typeToken_scalar ns hs c!"_"]
    cases Full.typeToken ns f.ty c!"_" none false with
    | none => rfl
    | some t =>
      cases f.default with
      | none => simp [printInit, Expr.print, printAs, printExprs]
      | some d =>
        cases d with
        | ident i =>
          by_cases he : f.ty.isEnum = true
          · simp only [he, if_true]
            cases formatIdent i <;> simp [printInit, Expr.print, printAs]
          · simp [he]
        | scalar s =>
          by_cases he : f.ty.isEnum = true
          · simp [he]
          · simp only [he, Full.fmtLit]
            cases h : fmtLit s t.print <;> simp [printInit, Expr.print, h]
  · have := typeToken_isSome ns f.ty [] c!"_" [] none false false
    simp only [hs, Bool.not_false, if_true]
    revert this
    cases typeToken ns f.ty [] [] false <;> cases Full.typeToken ns f.ty c!"_" none false <;>
      simp [printInit, v_print]

theorem printInits_eq : ∀ fs : List (Str × Option Expr),
    printInits fs = sepCommas (fs.map fun x => Tok.ident x.1 :: printInit x.2) ++ [.cls .brace]
  | [] => rfl
  | [f] => by simp [printInits, sepCommas]
  | f :: g :: fs => by
    have := printInits_eq (g :: fs)
    simp only [printInits] at this ⊢
    simp [this, sepCommas]

theorem argsLifetime_generics (fs : List Ir.Field) : argsLifetime fs [.life c!"a"] = printGenerics (Full.argsGenerics fs) := by
  unfold argsLifetime Full.argsGenerics Full.hasLife
  cases fs.any fun f => !(f.ty.isScalar || f.ty.isUnion) <;> rfl

theorem argsTy_print (n : Str) (fs : List Ir.Field) (l : Str) :
    (Full.argsTy n fs l).print = .ident (n ++ c!"Args") :: argsLifetime fs [.life l] := by
  unfold argsLifetime Full.argsTy Full.hasLife
  cases fs.any fun f => !(f.ty.isScalar || f.ty.isUnion) <;> rfl

theorem argsDefaultImpl_eq (ns : Option QIdent) (n : Str) (fs : List Ir.Field) :
    argsDefaultImpl ns (n ++ c!"Args") (argsLifetime fs [.life c!"a"]) fs = (Full.defaultItems n ns fs).map printItems := by
  unfold argsDefaultImpl Full.defaultItems Rs.canDefault
  split
  · rw [mapM_eq (h := Full.argDefault ns) (fun f _ => argsFieldDefault_eq ns f)]
    cases fs.mapM (Full.argDefault ns) with
    | none => rfl
    | some ds =>
      simp [printItems, Full.argsDefault, Item.print, printFor, Full.word, Ty.print, printPath, printBounds, argsTy_print, ImplItem.print,
        Fn.print, printWord, printGenerics, sepBy, sepCommas, printResult, printBlock, printOpt, Expr.print, printInits_eq, Full.selfTy,
        argsLifetime_generics]
  · rfl

theorem offset_print (n : Str) (f : Ir.Field) : (Full.slotExpr n f).print = [.ident n, .punct .colon2, .ident (offsetId f)] := rfl

theorem addBody_eq (n : Str) (f : Ir.Field) (t : Ty) : addBody n f t.print = (Full.addBody n f t).map Expr.print := by
  simp only [addBody, Full.addBody]
  split
  · cases f.default with
    | none => simp [Expr.print, v_print, printTurbofish, printExprs, offset_print, GArg.print, printArgs]
    | some d =>
      simp only [defaultValue_eq]
      cases Full.defaultValue t d <;> simp [Expr.print, v_print, printTurbofish, printExprs, offset_print, GArg.print, printArgs]
  · simp [Expr.print, v_print, printTurbofish, printExprs, offset_print, GArg.print, printArgs]

theorem inline_print : Full.inlineAttr.print = [.punct .hash, .opn .bracket, .ident c!"inline", .cls .bracket] := rfl

theorem builderFieldMethod_eq (n : Str) (ns : Option QIdent) (f : Ir.Field) :
    builderFieldMethod n ns f = (Full.addMethod n ns f).map Fn.print := by
  simp only [builderFieldMethod, Full.addMethod, argTy_eq, allow_eq]
  cases Full.argTy ns f.ty c!"b" with
  | none => rfl
  | some t =>
    simp only [Option.map_some, Option.bind_eq_bind, Option.bind_some, addBody_eq]
    cases Full.addBody n f t with
    | none => rfl
    | some b =>
      simp [Fn.print, printAttrs_cons, inline_print, printWord, Rs.addName, printGenerics, sepBy, sepCommas, Param.print, printResult,
        printBlock, Stmt.print, printOpt]

theorem fieldOffsetConstant_eq (gm : Mode) (i : Nat) (f : Ir.Field) :
    fieldOffsetConstant gm i f = (Full.slotConst gm i f).map ImplItem.print := by
  simp only [fieldOffsetConstant, Full.slotConst]
  cases Gen.slotOf gm i with
  | none => rfl
  | some s =>
    have h : ¬ ((s.val : Int) < 0) := by omega
    simp [ImplItem.print, printWord, Ty.print, printPath, printLit, h]

theorem missing_print (s : Str) : (Full.missing s).print =
    [.ident c!"butte", .punct .colon2, .ident c!"Error", .punct .colon2, .ident c!"RequiredFieldMissing", .opn .paren, .str s, .cls .paren] :=
  rfl

theorem getExpr_print (n : Str) (f : Ir.Field) (w : Ty) (d : Expr) : (Full.getExpr n f w d).print =
    .ident c!"self" :: .punct .dot :: .ident c!"table" :: .punct .dot :: .ident c!"get" :: .punct .colon2 :: .punct .lt :: (w.print ++
      .punct .gt :: .opn .paren :: .ident n :: .punct .colon2 :: .ident (offsetId f) :: .punct .comma :: (d.print ++ [.cls .paren])) := by
  simp [Full.getExpr, Expr.print, v_print, printTurbofish, GArg.print, printArgs, printExprs, offset_print]

/-- The tokens of an arm. -/
def armToks (a : Pat × Expr) : Toks := a.1.print ++ .punct .fatArrow :: a.2.print

theorem printArms_eq : ∀ as : List (Pat × Expr), printArms as = sepCommas (as.map armToks) ++ [.cls .brace]
  | [] => rfl
  | [a] => by simp [printArms, sepCommas, armToks]
  | a :: b :: as => by
    have := printArms_eq (b :: as)
    simp only [printArms] at this ⊢
    simp [this, sepCommas, armToks]

theorem sepCommas_snoc : ∀ (xs : List Toks) (y : Toks), sepCommas (xs ++ [y]) = endCommas xs ++ y
  | [], y => by simp [sepCommas, endCommas]
  | [x], y => by simp [sepCommas, endCommas]
  | x :: z :: xs, y => by
    have := sepCommas_snoc (z :: xs) y
    simp only [List.cons_append] at this ⊢
    simp [sepCommas, endCommas] at this ⊢
    rw [this]

theorem requiredArm_eq (n : Str) (ns : Option QIdent) (f : Ir.Field) (s : Str) {u e : List Str} (hu : u ≠ []) (he : e ≠ []) (x : Ir.UnionVariant) :
    requiredArm n ns f [.str s] (printPath u) (printPath e) x = (Full.requiredArm n ns f s u e x).map armToks := by
  simp only [requiredArm, Full.requiredArm, show (quote! "butte::ForwardsUOffset") = wrapToks (some fwdPath) from rfl,
    typeToken_eq ns x.ty c!"_" (some fwdPath) true (by simp [fwdPath])]
  cases Full.typeToken ns x.ty c!"_" (some fwdPath) true with
  | none => rfl
  | some w =>
    cases formatIdent x.ident with
    | none => rfl
    | some i => simp [armToks, Pat.print, Expr.print, printPath_snoc _ hu, printPath_snoc _ he, printTurbofish, printExprs,
        getExpr_print, missing_print, v_print]

theorem optionalArm_eq (n : Str) (ns : Option QIdent) (f : Ir.Field) {u e : List Str} (hu : u ≠ []) (he : e ≠ []) (x : Ir.UnionVariant) :
    optionalArm n ns f (printPath u) (printPath e) x = (Full.optionalArm n ns f u e x).map armToks := by
  simp only [optionalArm, Full.optionalArm, show (quote! "butte::ForwardsUOffset") = wrapToks (some fwdPath) from rfl,
    typeToken_eq ns x.ty c!"_" (some fwdPath) true (by simp [fwdPath])]
  cases Full.typeToken ns x.ty c!"_" (some fwdPath) true with
  | none => rfl
  | some w =>
    cases formatIdent x.ident with
    | none => rfl
    | some i => simp [armToks, Pat.print, Expr.print, printPath, printPath_snoc _ hu, printPath_snoc _ he, printTurbofish, printExprs,
        getExpr_print, v_print]

theorem getDefault_eq (w : Ty) (d : Option Ast.DefaultValue) : getDefault w.print d = (Full.getDefault w d).map Expr.print := by
  cases d with
  | none => rfl
  | some d =>
    simp only [getDefault, Full.getDefault, defaultValue_eq]
    cases Full.defaultValue w d <;> simp [Expr.print, v_print, printExprs]

theorem resultTy_print (t : Ty) : (Full.resultTy t).print = .ident c!"Result" :: .punct .lt :: (t.print ++
    [.punct .comma, .ident c!"butte", .punct .colon2, .ident c!"Error", .punct .gt]) := by
  simp [Full.resultTy, Ty.print, printPath, GArg.print, printArgs, Full.errorTy]

theorem optionTy_print (t : Ty) : (Full.optionTy t).print = .ident c!"Option" :: .punct .lt :: (t.print ++ [.punct .gt]) := by
  simp [Full.optionTy, Ty.print, printPath, GArg.print, printArgs]

theorem accessorFn_print (as : List Attr) (f : Ir.Field) (s : Str) (ret : Ty) (b : Expr) : (Full.accessorFn as f s ret b).print =
    printAttrs as ++ .ident c!"pub" :: .ident c!"fn" :: .ident s :: .opn .paren :: .punct .amp :: .ident c!"self" :: .cls .paren ::
      .punct .arrow :: ((Full.resultTy (if f.required then ret else Full.optionTy ret)).print ++ .opn .brace :: (b.print ++ [.cls .brace])) := by
  simp [Full.accessorFn, Fn.print, printWord, printGenerics, sepBy, sepCommas, Param.print, printResult, printBlock, printOpt]

theorem unionAccessor_eq (n : Str) (ns : Option QIdent) (f : Ir.Field) (s : Str) (ret : Ty) (q en : QIdent) (vs : List Ir.UnionVariant) :
    unionAccessor n ns f s ret.print q en vs = ((Full.unionBody n ns f s q en vs).map
      (Full.accessorFn [Full.inlineAttr] f s ret)).map Fn.print := by
  simp only [unionAccessor, Full.unionBody, path]
  cases hu : pathTokens (QIdent.relative q ns) with
  | none => rfl
  | some u =>
    cases he : pathTokens (QIdent.relative en ns) with
    | none => rfl
    | some e =>
      have hu := (pathTokens_some hu).2
      have he := (pathTokens_some he).2
      cases formatIdent (Heck.snake f.ident ++ c!"_type") with
      | none => rfl
      | some tag =>
        simp only [Option.map_some, Option.bind_eq_bind, Option.bind_some]
        by_cases hr : f.required = true
        · simp only [hr, if_true, mapM_eq (fun x _ => requiredArm_eq n ns f s hu he x)]
          cases List.mapM (Full.requiredArm n ns f s u e) vs with
          | none => rfl
          | some arms =>
            simp [accessorFn_print, hr, printAttrs_cons, inline_print, resultTy_print, Expr.print, v_print, printExprs, printTurbofish,
              printArms_eq, sepCommas_snoc, armToks, Full.lastArm, Pat.print, printPath_snoc _ he, missing_print]
        · simp only [hr, Bool.false_eq_true, if_false, mapM_eq (fun x _ => optionalArm_eq n ns f hu he x)]
          cases List.mapM (Full.optionalArm n ns f u e) vs with
          | none => rfl
          | some arms =>
            simp [accessorFn_print, hr, printAttrs_cons, inline_print, resultTy_print, optionTy_print, Expr.print, v_print, printExprs,
              printTurbofish, printArms_eq, sepCommas_snoc, armToks, Full.lastArm, Pat.print, printPath_snoc _ he, printPath]

theorem plainAccessor_eq (n : Str) (f : Ir.Field) (s : Str) (ret w : Ty) (d : Expr) :
    plainAccessor n f s ret.print w.print d.print =
      (Full.accessorFn (Full.comment f.doc ++ Full.inlineAttr :: Full.allowAttr f.ty) f s ret (Full.plainBody n f s w d)).print := by
  simp only [plainAccessor, comment_eq, allow_eq, accessorFn_print, Full.plainBody]
  split
  · simp [printAttrs_append, printAttrs_cons, inline_print, resultTy_print, Expr.print, getExpr_print, missing_print, printExprs,
      printTurbofish]
  · simp [printAttrs_append, printAttrs_cons, inline_print, resultTy_print, optionTy_print, getExpr_print]

theorem fieldAccessor_eq (n : Str) (ns : Option QIdent) (f : Ir.Field) : fieldAccessor n ns f = (Full.accessor n ns f).map Fn.print := by
  simp only [fieldAccessor, Full.accessor, show (quote! "butte::ForwardsUOffset") = wrapToks (some fwdPath) from rfl,
    typeToken_eq ns f.ty c!"_" (some fwdPath) _ (by simp [fwdPath])]
  cases formatIdent (Heck.snake f.ident) with
  | none => rfl
  | some s =>
    cases Full.typeToken ns f.ty c!"_" (some fwdPath) false with
    | none => rfl
    | some ret =>
      cases Full.typeToken ns f.ty c!"_" (some fwdPath) true with
      | none => rfl
      | some w =>
        simp only [Option.map_some, Option.bind_eq_bind, Option.bind_some, getDefault_eq]
        cases Full.getDefault w f.default with
        | none => rfl
        | some d =>
          simp only [Option.map_some, Option.bind_some]
          have hp := plainAccessor_eq n f s ret w d
          cases hty : f.ty with
          | union q en vs =>
            simp only [unionAccessor_eq]
            cases Full.unionBody n ns f s q en vs <;> simp
          | _ => simp only [hp, hty, Option.map_some]

theorem requiredField_eq (n : Str) (f : Ir.Field) : requiredField n f = (Full.requiredCheck n f).print := by
  simp [requiredField, Full.requiredCheck, Stmt.print, Expr.print, v_print, printTurbofish, printExprs, offset_print, printLit]

theorem ofB_print (n : Str) : (Full.ofB n).print = [.ident n, .punct .lt, .ident c!"B", .punct .gt] := rfl
theorem tableB_print : Full.tableB.print =
    [.ident c!"butte", .punct .colon2, .ident c!"Table", .punct .lt, .ident c!"B", .punct .gt] := rfl
theorem ofBytes_print (n l : Str) : (Full.ofBytes n (some l)).print =
    [.ident n, .punct .lt, .punct .amp, .life l, .opn .bracket, .ident c!"u8", .cls .bracket, .punct .gt] := rfl

theorem tableStruct_eq (n : Str) (doc : Ast.Comment) : tableStruct n (comment doc) = (Full.tableStruct n doc).print := by
  rw [comment_eq]
  simp [tableStruct, Full.tableStruct, Item.print, printAttrs_cons, Full.deriveAttr, Attr.print, AttrArg.print, printWord, printGenerics,
    sepBy, sepCommas, GParam.print, Field.print, tableB_print, printPath]

theorem tableFrom_eq (n : Str) : tableFrom n = (Full.tableFrom n).print := rfl
theorem tableInto_eq (n : Str) : tableInto n = (Full.tableInto n).print := rfl

theorem createFn_print (n : Str) (fs : List Ir.Field) : (Full.createFn n fs).print = [.ident c!"pub", .ident c!"fn", .ident c!"create"] ++
    [.punct .lt, .life c!"bldr", .punct .colon, .life c!"args", .punct .comma, .life c!"args", .punct .colon, .life c!"mut_bldr",
      .punct .comma, .life c!"mut_bldr", .punct .gt] ++ .opn .paren :: [.ident c!"fbb", .punct .colon, .punct .amp, .life c!"mut_bldr",
      .ident c!"mut", .ident c!"butte", .punct .colon2, .ident c!"FlatBufferBuilder", .punct .lt, .life c!"bldr", .punct .gt, .punct .comma,
      .ident c!"args", .punct .colon, .punct .amp, .life c!"args"] ++ ((Full.argsTy n fs c!"args").print ++ .cls .paren :: .punct .arrow ::
      [.ident c!"butte", .punct .colon2, .ident c!"WIPOffset", .punct .lt] ++ ((Full.ofBytes n (some c!"bldr")).print ++ .punct .gt ::
      .opn .brace :: [.ident c!"let", .ident c!"mut", .ident c!"builder", .punct .eq, .ident (n ++ c!"Builder"), .punct .colon2,
      .ident c!"new", .opn .paren, .ident c!"fbb", .cls .paren, .punct .semi] ++ ((fs.map Full.addCall).flatMap Stmt.print ++
      [.ident c!"builder", .punct .dot, .ident c!"finish", .opn .paren, .cls .paren, .cls .brace]))) := by
  simp [Full.createFn, Fn.print, printWord, printGenerics, sepBy, sepCommas, GParam.print, Param.print, Full.fbbTy, Ty.print, printLife,
    printPath, GArg.print, printArgs, printResult, Full.wip, wipPath, printBlock, Stmt.print, Expr.print, printTurbofish, printExprs,
    v_print, printOpt]

theorem tableCreate_eq (n : Str) (fs : List Ir.Field) (cs : List ImplItem) :
    tableCreate n (n ++ c!"Args") (n ++ c!"Builder") (argsLifetime fs (quote! "'args")) (cs.map ImplItem.print) (fs.map builderAddCall) =
      (Full.tableCreate n cs fs).print := by
  have e : fs.map builderAddCall = (fs.map Full.addCall).map Stmt.print := by
    simp [builderAddCall_eq]
  rw [e]
  simp [tableCreate, Full.tableCreate, Item.print, printGenerics, sepBy, sepCommas, GParam.print, printFor, ofBytes_print, printBounds,
    ImplItem.print, createFn_print, argsTy_print, List.flatMap_def]

theorem tableAccess_eq (n : Str) (accs : List Fn) : tableAccess n (accs.map Fn.print) = (Full.tableAccess n accs).print := by
  have e : Full.getRootFn.print = quote! "
        pub fn get_root(buf: B) -> Result<Self, butte::Error> {
            let table = butte::Table::get_root(buf)?;
            Ok(Self { table })
        }" := rfl
  have e2 : printBounds Full.asRef = quote! "where B: std::convert::AsRef<[u8]>" := rfl
  simp [tableAccess, Full.tableAccess, Item.print, printGenerics, sepBy, sepCommas, GParam.print, printFor, ofB_print, e, e2,
    ImplItem.print, List.flatMap_def, Function.comp_def]

theorem tableFollow_eq (n : Str) : tableFollow n = (Full.tableFollow n).print := rfl
theorem tableFollowBuf_eq (n : Str) : tableFollowBuf n = (Full.tableFollowBuf n).print := rfl

theorem argsStruct_eq (n : Str) (fs : List Ir.Field) (args : List Field) :
    argsStruct (n ++ c!"Args") (argsLifetime fs (quote! "'a")) (args.map Field.print) = (Full.argsStruct n fs args).print := by
  simp [argsStruct, Full.argsStruct, Item.print, printWord, argsLifetime_generics, sepBy]

theorem builderStruct_eq (n : Str) : builderStruct (n ++ c!"Builder") = (Full.builderStruct n).print := rfl

theorem builderImpl_eq (n : Str) (adds : List Fn) (fs : List Ir.Field) :
    builderImpl n (n ++ c!"Builder") (adds.map Fn.print) ((fs.filter (·.required)).map (requiredField n)) =
      (Full.builderImpl n adds fs).print := by
  have e : (fs.filter (·.required)).map (requiredField n) = ((fs.filter (·.required)).map (Full.requiredCheck n)).map Stmt.print := by
    simp [requiredField_eq]
  have e1 : (Full.newFn n).print = (let builder_type := n ++ c!"Builder"; quote! "
        #[inline]
        pub fn new(fbb: &'b mut butte::FlatBufferBuilder<'a>) -> Self {
            let start = fbb.start_table();
            #builder_type {
                fbb, start
            }
        }") := rfl
  have e2 : (Full.finishFn n fs).print = (let struct_id := n
      let required_fields := ((fs.filter (·.required)).map (Full.requiredCheck n)).map Stmt.print
      quote! "
        #[inline]
        pub fn finish(self) -> butte::WIPOffset<#struct_id<&'a [u8]>> {
            let o = self.fbb.end_table(self.start);
            #(#required_fields)*
            butte::WIPOffset::new(o.value())
        }") := by
    simp [Full.finishFn, Fn.print, printAttrs_cons, inline_print, printWord, printGenerics, sepBy, sepCommas, Param.print, printResult,
      Full.wip, Ty.print, wipPath, printPath, GArg.print, printArgs, ofBytes_print, printBlock, Stmt.print, Expr.print, v_print,
      printTurbofish, printExprs, printOpt, List.flatMap_def]
  rw [e]
  simp [builderImpl, Full.builderImpl, Item.print, e1, e2, printGenerics, sepBy, sepCommas, GParam.print, printFor, Ty.print, printPath,
    GArg.print, printArgs, printBounds, ImplItem.print, List.flatMap_def, Function.comp_def]

theorem printItems_append : ∀ as bs : List Item, printItems (as ++ bs) = printItems as ++ printItems bs
  | [], _ => rfl
  | a :: as, bs => by simp [printItems, printItems_append as bs]

theorem table_eq [FloatText] (gm : Mode) (t : Ir.Table) : table gm t = (Full.table gm t).map printItems := by
  simp only [table, Full.table, mapM_eq (fun f _ => argsField_eq _ f), mapM_eq (fun f _ => builderFieldMethod_eq _ _ f),
    mapM_eq (fun (x : Ir.Field × Nat) _ => fieldOffsetConstant_eq gm x.2 x.1), mapM_eq (fun f _ => fieldAccessor_eq _ _ f)]
  cases formatIdent (QIdent.simple t.ident) with
  | none => rfl
  | some n =>
  cases t.fields.mapM fun f => formatIdent f.ident with
  | none => rfl
  | some _ =>
  cases t.fields.mapM (Full.argField (QIdent.namespace t.ident)) with
  | none => rfl
  | some args =>
  simp only [Option.bind_eq_bind, Option.bind_some, Option.map_some, argsDefaultImpl_eq]
  cases Full.defaultItems n (QIdent.namespace t.ident) t.fields with
  | none => rfl
  | some dflt =>
  cases t.fields.mapM (Full.addMethod n (QIdent.namespace t.ident)) with
  | none => rfl
  | some adds =>
  cases (List.zipIdx t.fields).mapM fun x => Full.slotConst gm x.2 x.1 with
  | none => rfl
  | some cs =>
  cases t.fields.mapM (Full.accessor n (QIdent.namespace t.ident)) with
  | none => rfl
  | some accs =>
  simp only [Option.bind_some, Option.map_some, tableStruct_eq, tableFrom_eq, tableInto_eq, tableCreate_eq, tableAccess_eq, tableFollow_eq,
    tableFollowBuf_eq, builderStruct_eq, builderImpl_eq, pure]
  rw [show [Tok.life c!"a"] = (quote! "'a") from rfl, argsStruct_eq]
  simp [printItems, printItems_append]

theorem variantAndScalar_eq (b : Ir.EnumBase) (x : Ir.EnumVariant × Nat) : variantAndScalar (enumBase b) x =
    (Full.variantLit (Rs.baseName b) x).map fun y => (y.1, printLit y.2.1, comment y.2.2) := by
  simp only [variantAndScalar, Full.variantLit, enumBase_eq, fmtLit, suffix]
  cases formatIdent x.1.ident <;> simp

theorem enum_eq (e : Ir.Enum) : «enum» e = (Full.«enum» e).map printItems := by
  simp only [«enum», Full.«enum», mapM_eq (fun x _ => variantAndScalar_eq e.base x)]
  cases formatIdent (QIdent.simple e.ident) with
  | none => rfl
  | some n =>
  cases (List.zipIdx e.variants).mapM (Full.variantLit (Rs.baseName e.base)) with
  | none => rfl
  | some vs =>
  simp only [Option.map_some, Option.bind_eq_bind, Option.bind_some, enumBase_eq, pure, List.map_map, Option.some.injEq]
  generalize Rs.baseName e.base = b
  have h1 : enumItem n [.ident b] (comment e.doc) (vs.map (enumField ∘ fun y => (y.1, printLit y.2.1, comment y.2.2))) =
      (Full.enumItem n b e.doc vs).print := by
    have e1 : (enumField ∘ fun y : Str × Lit × Ast.Comment => (y.1, printLit y.2.1, comment y.2.2)) =
        (Variant.print ∘ fun x => ⟨Full.comment x.2.2, x.1, .value x.2.1⟩) := by
      funext x
      simp [enumField, Variant.print, comment_eq, Payload.print]
    rw [e1]
    simp [enumItem, Full.enumItem, Item.print, comment_eq, printAttrs_cons, Attr.print, AttrArg.print,
      Full.deriveAttr, sepBy, sepCommas, printWord, printPath, printGenerics]
  have h2 : enumDefaultImpl n (enumDefault n (vs.map fun y => (y.1, printLit y.2.1, comment y.2.2))) = (Full.enumDefault n vs).print := by
    cases vs <;> rfl
  have h3 : enumFollow n [.ident b] = (Full.enumFollow n b).print := rfl
  have h4 : enumTryFrom n [.ident b] (vs.map (fromBase n ∘ fun y => (y.1, printLit y.2.1, comment y.2.2))) =
      (Full.enumTryFrom n b vs).print := by
    have e1 : (fromBase n ∘ fun y : Str × Lit × Ast.Comment => (y.1, printLit y.2.1, comment y.2.2)) =
        (armToks ∘ fun x => (Pat.lit x.2.1, Full.ok (.qpath (Full.word n) none x.1))) := by
      funext x
      simp [fromBase, armToks, Pat.print, Full.ok, Expr.print, v_print, printExprs, Full.word, Ty.print, printPath, printAs]
    simp [enumTryFrom, Full.enumTryFrom, Item.print, e1, printGenerics, printFor, Full.tryFromTy, Ty.print, printPath, GArg.print, printArgs,
      Full.word, printBounds, ImplItem.print, Full.errorTy, Fn.print, printWord, sepBy, sepCommas, Param.print, printResult, Full.selfTy,
      printBlock, printOpt, Expr.print, v_print, printArms_eq, sepCommas_snoc, armToks, Pat.print, printExprs, printTurbofish]
  have h5 : enumInto n [.ident b] (vs.map (toBase n ∘ fun y => (y.1, printLit y.2.1, comment y.2.2))) = (Full.enumInto n b vs).print := by
    have e1 : (toBase n ∘ fun y : Str × Lit × Ast.Comment => (y.1, printLit y.2.1, comment y.2.2)) =
        (armToks ∘ fun x => (Pat.qpath (Full.word n) x.1, .lit x.2.1)) := by
      funext x
      simp [toBase, armToks, Pat.print, Expr.print, Full.word, Ty.print, printPath]
    simp [enumInto, Full.enumInto, Item.print, e1, printGenerics, printFor, Ty.print, printPath, GArg.print, printArgs,
      Full.word, printBounds, ImplItem.print, Fn.print, printWord, sepBy, sepCommas, Param.print, printResult,
      printBlock, printOpt, Expr.print, v_print, printArms_eq]
  have h6 : enumPush n [.ident b] = (Full.enumPush n b).print := rfl
  have h7 : enumName n (c!"enum_name_" ++ Heck.snake n)
      (vs.map ((fun x : Str × Toks × Toks => nameToString n x.1) ∘ fun y => (y.1, printLit y.2.1, comment y.2.2))) =
      (Full.enumName n vs).print := by
    have e1 : ((fun x : Str × Toks × Toks => nameToString n x.1) ∘ fun y : Str × Lit × Ast.Comment => (y.1, printLit y.2.1, comment y.2.2)) =
        (armToks ∘ fun x => (Pat.path [n, x.1], .lit (.str x.1))) := by
      funext x
      simp [nameToString, armToks, Pat.print, Expr.print, printPath, printLit]
    simp [enumName, Full.enumName, Item.print, e1, printGenerics, Ty.print, printPath, Full.word, Fn.print, printWord, sepBy, sepCommas,
      Param.print, printResult, printLife, printBlock, printOpt, Expr.print, v_print, printArms_eq]
  rw [h1, h2, h3, h4, h5, h6, h7]
  simp [printItems]

theorem unionVariant_eq (ns : Option QIdent) (x : Ir.UnionVariant) : unionVariant ns x = (Full.unionVariant ns x).map Variant.print := by
  have h := typeToken_eq ns x.ty c!"a" none false (by simp)
  simp only [wrapToks] at h
  simp only [unionVariant, Full.unionVariant, h]
  cases formatIdent x.ident with
  | none => rfl
  | some i =>
    cases Full.typeToken ns x.ty c!"a" none false with
    | none => rfl
    | some t => simp [Variant.print, Payload.print, comment_eq]

theorem union_eq (u : Ir.Union) : union u = (Full.union u).map printItems := by
  simp only [union, Full.union, mapM_eq (fun x _ => unionVariant_eq _ x), path]
  cases formatIdent (QIdent.simple u.ident) with
  | none => rfl
  | some n =>
  cases he : pathTokens (QIdent.relative u.enumIdent (QIdent.namespace u.ident)) with
  | none => rfl
  | some e =>
  have he := (pathTokens_some he).2
  cases u.variants.mapM (Full.unionVariant (QIdent.namespace u.ident)) with
  | none => rfl
  | some vs =>
  have e1 : unionArm n (printPath e) = armToks ∘ fun x : Ir.UnionVariant => (Pat.rest [n, x.ident], .path (e ++ [x.ident]) []) := by
    funext x
    simp [unionArm, armToks, Pat.print, Expr.print, printPath, printPath_snoc _ he, printTurbofish]
  simp [printItems, unionItem, unionImpl, Full.unionItem, Full.unionImpl, Item.print, e1, comment_eq, printAttrs_cons, Attr.print,
    AttrArg.print, Full.deriveAttr, sepBy, sepCommas, printWord, printPath, printGenerics, GParam.print, printFor, Ty.print, GArg.print,
    printArgs, printBounds, ImplItem.print, Fn.print, Param.print, printResult, printBlock, printOpt, Expr.print, v_print, printArms_eq]

mutual
theorem node_eq [FloatText] (gm : Mode) : ∀ n : Ir.Node, node gm n = (Full.node gm n).map printItems
  | .table t => by rw [node, Full.node]; exact table_eq gm t
  | .struct _ => rfl
  | .enum e => by rw [node, Full.node]; exact enum_eq e
  | .union u => by rw [node, Full.node]; exact union_eq u
  | .rpc _ => rfl
  | .namespace i ns => by
    simp only [node, Full.node, nodes_eq gm ns]
    cases formatIdent (Heck.snake (QIdent.simple i)) with
    | none => rfl
    | some m =>
      cases Full.nodes gm ns with
      | none => rfl
      | some is => simp [printItems, Item.print, printWord]
theorem nodes_eq [FloatText] (gm : Mode) : ∀ ns : List Ir.Node, nodes gm ns = (Full.nodes gm ns).map printItems
  | [] => rfl
  | n :: ns => by
    simp only [nodes, Full.nodes, node_eq gm n, nodes_eq gm ns]
    cases Full.node gm n with
    | none => rfl
    | some a =>
      cases Full.nodes gm ns with
      | none => rfl
      | some b => simp [printItems_append]
end

end Quote
end Butte.Src
