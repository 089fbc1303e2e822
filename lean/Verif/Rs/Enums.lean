import Verif.Rs.Traits
/-
The functions that are emitted for an enum, called from outside.
-/
namespace Butte.Rs
open Ir (QIdent)
open Gen (formatIdent formatIdent_eq)

theorem chooseArm_literals {P : Program} {sc : Scope} {t : STy} {vl : List (Str × Lit)} {ys : List (Str × SVal t)}
    (h : List.Forall₂ (LitOf t) vl ys) (x : SVal t) (g : Str → Expr) (e : Expr) :
    chooseArm P sc (.scalar t x) (vl.map (fun v => (Pat.lit v.2, g v.1)) ++ [(.wild, e)]) =
      some (match ys.find? fun y => y.2 == x with
        | some y => g y.1
        | none => e) := by
  induction h with
  | nil => rfl
  | @cons l y vl ys h _ ih =>
    simp only [List.map_cons, List.cons_append, chooseArm, matchPat, h.2.1, Option.map_some, Option.bind_eq_bind,
      Option.bind_some, List.find?_cons, h.1]
    cases hc : y.2 == x with
    | true => rfl
    | false => exact ih

theorem chooseArm_variants {α : Type} {P : Program} {sc : Scope} {vl : List (Str × α)} {v : Value} {c : Str} {p : Str → Pat}
    {g : Str × α → Expr} (hp : ∀ l ∈ vl, matchPat P sc (p l.1) v = some (l.1 == c)) :
    chooseArm P sc v (vl.map fun l => (p l.1, g l)) = (vl.find? fun l => l.1 == c).map g := by
  induction vl with
  | nil => rfl
  | cons l vl ih =>
    simp only [List.map_cons, chooseArm, hp l (by simp), Option.bind_eq_bind, Option.bind_some, List.find?_cons]
    cases hc : l.1 == c with
    | true => rfl
    | false => exact ih fun l hl => hp l (by simp [hl])

theorem find_forall₂ {t : STy} {vl : List (Str × Lit)} {ys : List (Str × SVal t)} (h : List.Forall₂ (LitOf t) vl ys)
    (hn : (ys.map (·.1)).Nodup) {y : Str × SVal t} (hy : y ∈ ys) :
    ∃ l, vl.find? (fun l => l.1 == y.1) = some l ∧ LitOf t l y := by
  induction h with
  | nil => cases hy
  | @cons l y' vl ys h _ ih =>
    rw [List.map_cons, List.nodup_cons] at hn
    rcases List.mem_cons.mp hy with rfl | hy
    · exact ⟨l, by simp [h.1], h⟩
    · obtain ⟨l', h1, h2⟩ := ih hn.2 hy
      refine ⟨l', ?_, h2⟩
      rw [List.find?_cons_of_neg, h1]
      simp only [beq_iff_eq, h.1]
      intro e
      exact hn.1 (e ▸ List.mem_map_of_mem hy)

/-- The search of `TryFrom`. -/
theorem find_value {t : STy} {vs : List Ir.EnumVariant} {xs : List (SVal t)} (hl : xs.length = vs.length) (x : SVal t) :
    (∃ i v, vs[i]? = some v ∧ (xs.map (·.val)).findIdx? (· == x.val) = some i ∧
      ∃ y, (named vs xs).find? (fun y => y.2 == x) = some y ∧ y.1 = v.ident) ∨
    ((xs.map (·.val)).findIdx? (· == x.val) = none ∧ (named vs xs).find? (fun y => y.2 == x) = none) := by
  induction vs generalizing xs with
  | nil =>
    cases xs with
    | nil => exact .inr ⟨rfl, rfl⟩
    | cons x xs => simp at hl
  | cons v vs ih =>
    cases xs with
    | nil => simp at hl
    | cons y ys =>
      simp only [List.length_cons, Nat.add_right_cancel_iff] at hl
      simp only [named, List.map_cons, List.zip_cons_cons, List.find?_cons, List.findIdx?_cons]
      by_cases hxy : y = x
      · subst hxy
        exact .inl ⟨0, v, rfl, by simp, (v.ident, y), by simp, rfl⟩
      · have h1 : (y == x) = false := by simpa using hxy
        have h2 : (y.val == x.val) = false := by
          simp only [beq_eq_false_iff_ne, ne_eq]
          exact fun e => hxy (Fin.ext e)
        simp only [h1, h2]
        rcases ih hl with ⟨i, w, e1, e2, z, e3, e4⟩ | ⟨e1, e2⟩
        · exact .inl ⟨i + 1, w, by simpa using e1, by simp [e2], z, e3, e4⟩
        · exact .inr ⟨by simp [e1], e2⟩

section
variable {gm md : Mode} {P : Program} {q : QIdent} {b : Ir.EnumBase} {vs : List Ir.EnumVariant}
  {xs : List (SVal (Gen.enumBaseSTy b))} {n : Nat}

theorem named_get {i : Nat} {v : Ir.EnumVariant} {x : SVal (Gen.enumBaseSTy b)}
    (hv : vs[i]? = some v) (hx : xs[i]? = some x) : (v.ident, x) ∈ named vs xs := by
  refine List.mem_of_getElem? (i := i) ?_
  rw [List.getElem?_zip_eq_some]
  exact ⟨by simp [hv], hx⟩

theorem EnumAt.nodupNames (A : EnumAt P q b vs xs) : ((named vs xs).map (·.1)).Nodup := by
  rw [A.names]
  exact (enumValues_some A.values).2.2.2.1

theorem EnumAt.resolve (A : EnumAt P q b vs xs) {sc : Scope} (hsc : sc.Ok) (hm : sc.module = modOf q) :
    resolve P sc [QIdent.simple q] = some (.item (modOf q) (QIdent.simple q)) := by
  rw [← hm]
  exact resolve_own A.hygienic hsc (by rw [hm]; exact A.own)

theorem EnumAt.matchPat (A : EnumAt P q b vs xs) {sc : Scope} (hsc : sc.Ok) (hm : sc.module = modOf q) {c : Str}
    (hc : c ∈ vs.map (·.ident)) (c' : Str) :
    matchPat P sc (.variant (.path [QIdent.simple q]) c) (.variant (modOf q) (QIdent.simple q) c') = some (c == c') := by
  simp only [Rs.matchPat, A.resolve hsc hm, if_true, A.enumOf]
  rw [if_pos]
  rw [A.names]
  exact hc

theorem EnumAt.eval_variant (A : EnumAt P q b vs xs) {sc : Scope} (hsc : sc.Ok) (hm : sc.module = modOf q) {c : Str}
    (hc : c ∈ vs.map (·.ident)) {vars : Vars} (s : St) :
    eval md P (n + 1) sc vars (.assoc (.path [QIdent.simple q]) c) s = .val (.variant (modOf q) (QIdent.simple q) c) s := by
  refine eval_assoc (t := .path [QIdent.simple q]) (d := .item (modOf q) (QIdent.simple q)) (A.resolve hsc hm) ?_ s
  rw [assocValue, A.enumOf]
  simp only
  rw [if_pos]
  rw [A.names]
  exact hc

theorem endCall_val {x : M Value} {s s' : St} {v : Value} (h : x s = .val v s') : endCall x s = .val v s' := by
  rw [endCall, h]

theorem EnumAt.invoke_default (A : EnumAt P q b vs xs) {v : Ir.EnumVariant} (hv : vs[0]? = some v) {vl : List (Str × Lit)}
    (hn : vl.map (·.1) = vs.map (·.ident)) (s : St) :
    invoke md P (n + 1) (enumScope q) (enumDefaultFn (QIdent.simple q) vl) [] s =
      .val (.variant (modOf q) (QIdent.simple q) v.ident) s := by
  rw [invoke_apply (vs := []) rfl]
  cases vs with
  | nil => cases hv
  | cons v' vs =>
    cases hv
    cases vl with
    | nil => cases hn
    | cons l vl =>
      have e : l.1 = v.ident := by simpa using (List.cons.inj hn).1
      refine endCall_val ?_
      simp only [enumDefaultFn, evalBlock, e]
      exact A.eval_variant (.inl rfl) rfl (by simp) s

/-- `Default`: the first variant. -/
theorem EnumAt.call_default (A : EnumAt P q b vs xs) {v : Ir.EnumVariant} (hv : vs[0]? = some v) :
    callTrait md P (n + 1) (modOf q) (QIdent.simple q) (.std c!"Default") c!"default" [] =
      pure (.variant (modOf q) (QIdent.simple q) v.ident) := by
  obtain ⟨vl, hl, hn, h, -⟩ := A.traits
  funext s
  rw [callTrait_eq h]
  exact A.invoke_default hv hn s

theorem EnumAt.invoke_tryFrom (A : EnumAt P q b vs xs) {vl : List (Str × Lit)}
    (hl : List.Forall₂ (LitOf (Gen.enumBaseSTy b)) vl (named vs xs)) (x : SVal (Gen.enumBaseSTy b)) (s : St) :
    invoke md P (n + 3) (enumScope q) (enumTryFromFn (QIdent.simple q) (baseName b) vl) [.scalar (Gen.enumBaseSTy b) x] s =
      result (Butte.enumTryFrom (xs.map (·.val)) x.val) (encEnum q vs) s := by
  rw [invoke_apply (vs := [(c!"value", .scalar (Gen.enumBaseSTy b) x)]) (by simp [bindParams, enumTryFromFn, unbindable])]
  have hsc : Scope.Ok (enumScope q) := .inl rfl
  have arm := chooseArm_literals (P := P) (sc := enumScope q) hl x
    (fun c => .ok (.assoc (.path [QIdent.simple q]) c)) (.err (.assoc errorTy c!"UnknownEnumVariant"))
  unfold Butte.enumTryFrom
  rcases find_value A.length x with ⟨i, v, hv, e1, y, e2, e3⟩ | ⟨e1, e2⟩
  · rw [e2] at arm
    rw [e1]
    simp only [result, encEnum, hv, Option.map_some, need_some]
    refine endCall_val ?_
    simp only [enumTryFromFn, evalBlock]
    rw [eval_match, bind_val (eval_var rfl s), arm, need_some, bind_val (pure_apply _ _), eval_ok,
      bind_val (A.eval_variant hsc rfl (by rw [e3]; exact List.mem_map_of_mem (List.mem_of_getElem? hv)) s), e3]
    rfl
  · rw [e2] at arm
    rw [e1]
    simp only [result]
    refine endCall_val ?_
    simp only [enumTryFromFn, evalBlock]
    rw [eval_match, bind_val (eval_var rfl s), arm, need_some, bind_val (pure_apply _ _)]
    exact eval_err (eval_assoc (t := errorTy) (d := .butte c!"Error")
      (show defOf P (enumScope q) errorTy = _ from resolve_butte A.hygienic hsc _) rfl s)

/-- `TryFrom`: the variant with the value. -/
theorem EnumAt.call_tryFrom (A : EnumAt P q b vs xs) (x : SVal (Gen.enumBaseSTy b)) :
    callTrait md P (n + 3) (modOf q) (QIdent.simple q) (.std c!"TryFrom") c!"try_from" [.scalar (Gen.enumBaseSTy b) x] =
      result (Butte.enumTryFrom (xs.map (·.val)) x.val) (encEnum q vs) := by
  obtain ⟨vl, hl, hn, -, -, h, -⟩ := A.traits
  funext s
  rw [callTrait_eq h]
  exact A.invoke_tryFrom hl x s

theorem result_apply {α : Type} (r : Res α) (k : α → Option Value) (s : St) : result r k s = match r with
    | .ok a => (match k a with
      | some v => .val (.ok v) s
      | none => .stuck)
    | .err e => .val (.err e) s
    | .panic => .panic := by
  cases r with
  | ok a =>
    simp only [result]
    cases h : k a with
    | none => rfl
    | some v => rfl
  | err e => rfl
  | panic => rfl

/-- `Follow`: as the model of the runtime follows enums. -/
theorem EnumAt.call_follow (A : EnumAt P q b vs xs) (buf : Bytes) (loc : Nat) :
    callTrait md P (n + 4) (modOf q) (QIdent.simple q) (.butte c!"Follow") c!"follow" [.bytes buf, .usize loc] =
      result (FTy.follow md (.enum (Gen.enumBaseSTy b) (xs.map (·.val))) buf loc) (encEnum q vs) := by
  obtain ⟨vl, hl, hn, -, h, -, htf, -⟩ := A.traits
  have hsc : Scope.Ok (enumScope q) := .inl rfl
  funext s
  rw [callTrait_eq h, invoke_apply (vs := [(c!"buf", .bytes buf), (c!"loc", .usize loc)])
    (by simp [bindParams, enumFollowFn, unbindable]), FTy.follow]
  have e1 : ∀ vars : Vars, vars = [(c!"buf", .bytes buf), (c!"loc", .usize loc)] →
      eval md P (n + 3) (enumScope q) vars (.fn [c!"butte", c!"read_scalar_at"] (.path [baseName b]) [.var c!"buf", .var c!"loc"]) =
      result (readScalarAt md (Gen.enumBaseSTy b) buf loc) fun x => some (.scalar (Gen.enumBaseSTy b) x) := by
    rintro _ rfl
    funext s
    rw [eval, resolve_butte A.hygienic hsc, need_some, bind_val (pure_apply _ _), baseName]
    simp only [defOf]
    rw [resolve_prim A.hygienic hsc, need_some, bind_val (pure_apply _ _)]
    rfl
  simp only [enumFollowFn, evalBlock]
  cases hr : readScalarAt md (Gen.enumBaseSTy b) buf loc with
  | panic =>
    rw [endCall, bind_apply, eval_try, bind_apply, e1 _ rfl, hr]
    rfl
  | err e =>
    rw [endCall, bind_apply, eval_try, bind_apply, e1 _ rfl, hr]
    rfl
  | ok x =>
    have e2 : ∀ vars : Vars, vars = [(c!"buf", .bytes buf), (c!"loc", .usize loc)] → eval md P (n + 4) (enumScope q) vars
        (.try (.fn [c!"butte", c!"read_scalar_at"] (.path [baseName b]) [.var c!"buf", .var c!"loc"])) s =
        .val (.scalar (Gen.enumBaseSTy b) x) s := by
      intro vars hv
      rw [eval_try, bind_apply, e1 _ hv, hr]
      rfl
    rw [endCall, bind_val (e2 _ rfl),
      eval_call_item (m := modOf q) (k := QIdent.simple q) (by simp only [defOf, selfTy]; exact resolve_self) htf, bind_apply]
    have e3 : evalList (eval md P (n + 3) (enumScope q) ((c!"scalar", .scalar (Gen.enumBaseSTy b) x) ::
        [(c!"buf", .bytes buf), (c!"loc", .usize loc)])) [.var c!"scalar"] s = .val [.scalar (Gen.enumBaseSTy b) x] s := rfl
    rw [e3]
    simp only
    rw [A.invoke_tryFrom hl x s]
    show _ = result (Butte.enumTryFrom (xs.map (·.val)) x.val) (encEnum q vs) s
    rw [result_apply]
    cases Butte.enumTryFrom (xs.map (·.val)) x.val with
    | ok i => cases h : encEnum q vs i <;> simp [h]
    | err e => rfl
    | panic => rfl

theorem EnumAt.invoke_from (A : EnumAt P q b vs xs) {vl : List (Str × Lit)}
    (hl : List.Forall₂ (LitOf (Gen.enumBaseSTy b)) vl (named vs xs)) (hn : vl.map (·.1) = vs.map (·.ident)) {i : Nat}
    {v : Ir.EnumVariant} {x : SVal (Gen.enumBaseSTy b)} (hv : vs[i]? = some v) (hx : xs[i]? = some x) {d : Option Def} (s : St) :
    invoke md P (n + 2) ⟨modOf q, [], d⟩ (enumIntoFn (QIdent.simple q) (baseName b) vl)
      [.variant (modOf q) (QIdent.simple q) v.ident] s = .val (.scalar (Gen.enumBaseSTy b) x) s := by
  rw [invoke_apply (vs := [(c!"value", .variant (modOf q) (QIdent.simple q) v.ident)])
    (by simp [bindParams, enumIntoFn, unbindable])]
  have hsc : Scope.Ok ⟨modOf q, [], d⟩ := .inl rfl
  obtain ⟨l, h1, h2⟩ := find_forall₂ hl A.nodupNames (named_get hv hx)
  have arm := chooseArm_variants (P := P) (sc := ⟨modOf q, [], d⟩) (v := .variant (modOf q) (QIdent.simple q) v.ident)
    (vl := vl) (c := v.ident) (p := fun c => .variant (.path [QIdent.simple q]) c) (g := fun l => .lit l.2) (by
      intro l hl
      exact A.matchPat hsc rfl (by rw [← hn]; exact List.mem_map_of_mem hl) _)
  rw [h1] at arm
  refine endCall_val ?_
  simp only [enumIntoFn, evalBlock]
  rw [eval_match, bind_val (eval_var rfl s), arm, Option.map_some, need_some, bind_val (pure_apply _ _)]
  exact eval_lit h2.2.2 s

/-- `From`: the value of the variant. -/
theorem EnumAt.call_from (A : EnumAt P q b vs xs) {i : Nat} {v : Ir.EnumVariant} {x : SVal (Gen.enumBaseSTy b)}
    (hv : vs[i]? = some v) (hx : xs[i]? = some x) :
    convert md P (n + 2) (Gen.enumBaseSTy b) (modOf q) (QIdent.simple q) (.variant (modOf q) (QIdent.simple q) v.ident) =
      pure (.scalar (Gen.enumBaseSTy b) x) := by
  obtain ⟨vl, hl, hn, -, -, -, -, -, -, h, -⟩ := A.traits
  funext s
  rw [convert_eq h]
  exact A.invoke_from hl hn hv hx s

/-- `Push`: the value of the variant, written as a number. -/
theorem EnumAt.call_push (A : EnumAt P q b vs xs) {i : Nat} {v : Ir.EnumVariant} {x : SVal (Gen.enumBaseSTy b)}
    (hv : vs[i]? = some v) (hx : xs[i]? = some x) (rest : Bytes) (s : St) :
    callTrait md P (n + 3) (modOf q) (QIdent.simple q) (.butte c!"Push") c!"push"
      [.variant (modOf q) (QIdent.simple q) v.ident, .dst, .bytes rest] s =
      match emplaceScalar s.dst x with
      | .ok d => .val .unit { s with dst := d }
      | .err _ => .stuck
      | .panic => .panic := by
  obtain ⟨vl, hl, hn, -, -, -, -, -, h, hfrom, -⟩ := A.traits
  have hsc : Scope.Ok (enumScope q) := .inl rfl
  rw [callTrait_eq h, invoke_apply (vs := [(c!"self", .variant (modOf q) (QIdent.simple q) v.ident), (c!"dst", .dst),
    (c!"_rest", .bytes rest)]) (by simp [bindParams, enumPushFn, unbindable, selfParam])]
  have e1 : ∀ vars : Vars, vars = [(c!"self", .variant (modOf q) (QIdent.simple q) v.ident), (c!"dst", .dst),
      (c!"_rest", .bytes rest)] → eval md P (n + 3) (enumScope q) vars
        (.call (.path [baseName b]) c!"from" [.deref (.var c!"self")]) s = .val (.scalar (Gen.enumBaseSTy b) x) s := by
    rintro _ rfl
    rw [eval]
    simp only [defOf, baseName]
    rw [resolve_prim A.hygienic hsc, need_some, bind_val (pure_apply _ _)]
    have e : evalList (eval md P (n + 2) (enumScope q) [(c!"self", .variant (modOf q) (QIdent.simple q) v.ident),
      (c!"dst", .dst), (c!"_rest", .bytes rest)]) [.deref (.var c!"self")] s =
        .val [.variant (modOf q) (QIdent.simple q) v.ident] s := rfl
    rw [bind_val e]
    simp only
    rw [hfrom, need_some, bind_val (pure_apply _ _), if_pos trivial]
    exact A.invoke_from hl hn hv hx s
  simp only [enumPushFn, evalBlock]
  have e2 : ∀ vars : Vars, vars = (c!"scalar", .scalar (Gen.enumBaseSTy b) x) ::
      [(c!"self", .variant (modOf q) (QIdent.simple q) v.ident), (c!"dst", .dst), (c!"_rest", .bytes rest)] →
      eval md P (n + 3) (enumScope q) vars (.fn [c!"butte", c!"emplace_scalar"] (.path [baseName b])
        [.var c!"dst", .var c!"scalar"]) s = match emplaceScalar s.dst x with
      | .ok d => .val .unit { s with dst := d }
      | .err _ => .stuck
      | .panic => .panic := by
    rintro _ rfl
    rw [eval, resolve_butte A.hygienic hsc, need_some, bind_val (pure_apply _ _), baseName]
    simp only [defOf]
    rw [resolve_prim A.hygienic hsc, need_some, bind_val (pure_apply _ _)]
    have e : evalList (eval md P (n + 2) (enumScope q) ((c!"scalar", .scalar (Gen.enumBaseSTy b) x) ::
      [(c!"self", .variant (modOf q) (QIdent.simple q) v.ident), (c!"dst", .dst), (c!"_rest", .bytes rest)]))
        [.var c!"dst", .var c!"scalar"] s = .val [.dst, .scalar (Gen.enumBaseSTy b) x] s := rfl
    rw [bind_val e]
    simp [runtimeFn]
    rfl
  rw [endCall, bind_val (e1 _ rfl), bind_apply, e2 _ rfl]
  cases emplaceScalar s.dst x with
  | ok d => simp only [eval_unit]; rfl
  | err e => rfl
  | panic => rfl

/-- The function that names the variants. -/
theorem EnumAt.call_name (A : EnumAt P q b vs xs) {i : Nat} {v : Ir.EnumVariant} (hv : vs[i]? = some v) :
    callFree md P (n + 2) (modOf q) (c!"enum_name_" ++ Heck.snake (QIdent.simple q))
      [.variant (modOf q) (QIdent.simple q) v.ident] = pure (.str (String.ofList v.ident)) := by
  obtain ⟨vl, hl, hn, -, -, -, -, -, -, -, h⟩ := A.traits
  funext s
  rw [callFree_eq h, invoke_apply (vs := [(c!"e", .variant (modOf q) (QIdent.simple q) v.ident)])
    (by simp [bindParams, enumNameFn, unbindable])]
  have hsc : Scope.Ok ⟨modOf q, [], none⟩ := .inl rfl
  have hlt : i < xs.length := by rw [A.length]; exact (List.getElem?_eq_some_iff.mp hv).1
  obtain ⟨l, h1, h2⟩ := find_forall₂ hl A.nodupNames (named_get hv (List.getElem?_eq_getElem hlt))
  have arm := chooseArm_variants (P := P) (sc := ⟨modOf q, [], none⟩) (v := .variant (modOf q) (QIdent.simple q) v.ident)
    (vl := vl) (c := v.ident) (p := fun c => .variant (.path [QIdent.simple q]) c) (g := fun l => .lit (.str l.1)) (by
      intro l hl
      exact A.matchPat hsc rfl (by rw [← hn]; exact List.mem_map_of_mem hl) _)
  rw [h1] at arm
  refine endCall_val ?_
  simp only [enumNameFn, evalBlock]
  rw [eval_match, bind_val (eval_var rfl s), arm, Option.map_some, need_some, bind_val (pure_apply _ _), h2.1]
  exact eval_lit rfl s

end

end Butte.Rs
