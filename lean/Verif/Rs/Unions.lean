import Verif.Rs.Access
/-
The accessors of unions in the emitted program.
-/
namespace Butte.Rs
open Ir (QIdent)
open Gen (formatIdent formatIdent_eq GField Kind Args kindOf okOr)

theorem chooseArm_hit {P : Program} {sc : Scope} {v : Value} {arms : List (Pat × Expr)} {j : Nat} {a : Pat × Expr}
    (hj : arms[j]? = some a) (hlt : ∀ k < j, ∀ b, arms[k]? = some b → matchPat P sc b.1 v = some false)
    (hit : matchPat P sc a.1 v = some true) : chooseArm P sc v arms = some a.2 := by
  induction arms generalizing j with
  | nil => simp at hj
  | cons b arms ih =>
    cases j with
    | zero =>
      simp only [List.getElem?_cons_zero, Option.some.injEq] at hj
      subst hj
      obtain ⟨p, e⟩ := b
      simp only at hit
      simp [chooseArm, hit]
    | succ j =>
      rw [List.getElem?_cons_succ] at hj
      have h0 := hlt 0 (by omega) b (by simp)
      have := ih hj (fun k hk c hc => hlt (k + 1) (by omega) c (by simpa using hc))
      obtain ⟨p, e⟩ := b
      simp only at h0
      simp [chooseArm, h0, this]

theorem choose_member {P : Program} {sc : Scope} {val : Value} {arms : List (Pat × Expr)} {last : Pat × Expr}
    {names : List Str} {c : Str}
    (hm : ∀ (k : Nat) b, arms[k]? = some b → ∃ x, names[k]? = some x ∧ matchPat P sc b.1 val = some (x == c)) :
    (∀ {k : Nat} {a : Pat × Expr}, names.Nodup → names[k]? = some c → arms[k]? = some a → chooseArm P sc val (arms ++ [last]) = some a.2) ∧
    (c ∉ names → matchPat P sc last.1 val = some true → chooseArm P sc val (arms ++ [last]) = some last.2) := by
  constructor
  · intro k a hn hk ha
    have hkl := (List.getElem?_eq_some_iff.mp ha).1
    refine chooseArm_hit (j := k) (by rw [List.getElem?_append_left hkl, ha]) ?_ ?_
    · intro k' hk' b hb
      rw [List.getElem?_append_left (by omega)] at hb
      obtain ⟨x, hx, hp⟩ := hm k' b hb
      rw [hp, Option.some.injEq, beq_eq_false_iff_ne]
      rintro rfl
      have := (List.getElem?_inj (List.getElem?_eq_some_iff.mp hx).1 hn).mp (hx.trans hk.symm)
      omega
    · obtain ⟨x, hx, hp⟩ := hm k a ha
      rw [hk] at hx
      cases hx
      rw [hp, beq_self_eq_true]
  · intro hc hl
    refine chooseArm_hit (j := arms.length) (by simp) ?_ hl
    intro k hk b hb
    rw [List.getElem?_append_left hk] at hb
    obtain ⟨x, hx, hp⟩ := hm k b hb
    rw [hp, Option.some.injEq, beq_eq_false_iff_ne]
    rintro rfl
    exact hc (List.mem_of_getElem? hx)

theorem requiredArm_eq {n : Str} {ns : Option QIdent} {f : Ir.Field} {snake : Str} {u e : List Str} {v : Ir.UnionVariant}
    {a : Pat × Expr} (h : requiredArm n ns f snake u e v = some a) : ∃ w, typeToken ns v.ty (some fwdPath) true = some w ∧
      a = (.variant (.path e) v.ident, .ctor (.path u) v.ident (.try (.method (.try (getExpr n f w .none)) c!"ok_or"
        [missing snake]))) := by
  simp only [requiredArm, Option.bind_eq_bind, Option.bind_eq_some_iff, Option.pure_def, Option.some.injEq] at h
  obtain ⟨w, hw, i, hi, rfl⟩ := h
  have := formatIdent_eq hi
  subst this
  exact ⟨w, hw, rfl⟩

theorem optionalArm_eq {n : Str} {ns : Option QIdent} {f : Ir.Field} {u e : List Str} {v : Ir.UnionVariant}
    {a : Pat × Expr} (h : optionalArm n ns f u e v = some a) : ∃ w, typeToken ns v.ty (some fwdPath) true = some w ∧
      a = (.some (.variant (.path e) v.ident), .mapCtor (.try (getExpr n f w .none)) (.path u) v.ident) := by
  simp only [optionalArm, Option.bind_eq_bind, Option.bind_eq_some_iff, Option.pure_def, Option.some.injEq] at h
  obtain ⟨w, hw, i, hi, rfl⟩ := h
  have := formatIdent_eq hi
  subst this
  exact ⟨w, hw, rfl⟩

theorem encEnum_eq {q : QIdent} {vs : List Ir.EnumVariant} {i : Nat} :
    encEnum q vs i = (vs.map (·.ident))[i]?.map fun c => .variant (modOf q) (QIdent.simple q) c := by
  simp [encEnum, Function.comp_def]

theorem matchPat_variant {P : Program} {sc : Scope} (hn : P.names.Nodup) {q : QIdent} {vs : List Ir.EnumVariant}
    {b : Ir.EnumBase} (ht : HasTy P (.enum q vs b)) {p : List Str}
    (hl : resolve P sc p = some (.item (modOf q) (QIdent.simple q))) {xs : List (SVal (Gen.enumBaseSTy b))}
    (hx : Gen.enumValues (Gen.enumBaseSTy b) vs = some xs) {c : Str} (hc : c ∈ vs.map (·.ident)) (c' : Str) :
    matchPat P sc (.variant (.path p) c) (.variant (modOf q) (QIdent.simple q) c') = some (c == c') := by
  obtain ⟨vl, hv, hpl⟩ := ht
  simp only [matchPat, hl, if_true, enumOf_placed hn hv hpl hx]
  rw [if_pos]
  rw [List.map_fst_zip (by simp [(enumValues_some hx).2.1])]
  exact hc

theorem forall₂_getElem? {α β : Type} {R : α → β → Prop} {l : List α} {l' : List β} (h : List.Forall₂ R l l') {k : Nat} :
    (∀ {a}, l[k]? = some a → ∃ b, l'[k]? = some b ∧ R a b) ∧ (∀ {b}, l'[k]? = some b → ∃ a, l[k]? = some a ∧ R a b) := by
  induction h generalizing k with
  | nil => simp
  | cons h _ ih =>
    cases k with
    | zero => simp [h]
    | succ k => simpa using ih

theorem get_cast {md : Mode} {tb : Butte.Table} {F : FollowTy} {f : FTy} (h : F.fty = f) (slot : Nat) :
    result (tb.get md F.fty slot none) (encOption F.value false) =
      result (tb.get md f slot none) (encOption (encInner F f) false) := by
  subst h
  have : F.value = encInner F F.fty := by
    funext x
    simp [encInner]
  rw [this]

/-- A member of a union. -/
def member {fs : List FTy} {k : Nat} (h : k < fs.length) (x : fs[k].Inner) : (Kind.union fs).Inner :=
  (⟨⟨k, h⟩, x⟩ : Σ i : Fin fs.length, (fs.get i).Inner)

theorem fetch_zero {md : Mode} {tb : Butte.Table} {slot : Nat} {fs : List FTy} :
    (Kind.union fs).fetch md tb slot (.ok (some 0)) = .ok none := rfl

theorem fetch_none {md : Mode} {tb : Butte.Table} {slot : Nat} {fs : List FTy} :
    (Kind.union fs).fetch md tb slot (.ok none) = .ok none := rfl

theorem fetch_succ {md : Mode} {tb : Butte.Table} {slot : Nat} {fs : List FTy} {k : Nat} (h : k < fs.length) :
    (Kind.union fs).fetch md tb slot (.ok (some (k + 1))) =
      match tb.get md fs[k] slot none with
      | .ok x => .ok (x.map (member h))
      | .err e => .err e
      | .panic => .panic := by
  show (if h : k < fs.length then _ else _) = _
  rw [dif_pos h]
  simp only [List.get_eq_getElem]
  cases tb.get md fs[k] slot none <;> rfl

theorem encResult_member {q e : QIdent} {vs : List Ir.UnionVariant} {fs : List FTy} {k : Nat} (h : k < fs.length)
    {v : Ir.UnionVariant} (hv : vs[k]? = some v) {F : FollowTy} (hF : follows v.ty = some F) (x : fs[k].Inner) :
    encResult (.union q e vs) (.union fs) (member h x) =
      (encInner F fs[k] x).map fun y => .union (modOf q) (QIdent.simple q) v.ident y := by
  simp only [encResult, member, hv, hF, Option.bind_eq_bind, Option.bind_some, List.get_eq_getElem, Option.pure_def]
  cases encInner F fs[k] x <;> rfl

theorem pathTokens_eq {q : QIdent} {p : List Str} (h : pathTokens q = some p) : p = q := by
  unfold pathTokens at h
  split at h
  · cases h
  · cases h; rfl

section
variable {gm md : Mode} {P : Program} {t : Ir.Table} {gs : List GField} {n : Nat}

/-- The tag of a union. -/
theorem TableAt.tag (A : TableAt gm P t gs) {i : Nat} {f : Ir.Field} {g : GField}
    (hf : t.fields[i]? = some f) (hg : gs[i]? = some g) {q e : QIdent} {vs : List Ir.UnionVariant}
    (hty : f.ty = .union q e vs) : ∃ evs b xs, HasTy P (.enum e evs b) ∧
      evs.map (·.ident) = c!"None" :: vs.map (·.ident) ∧ Gen.enumValues (Gen.enumBaseSTy b) evs = some xs ∧
      ∀ md (tb : Butte.Table), (∀ i, Gen.tagOf md tb gs g.name = .ok (some i) → i < vs.length + 1) ∧
        (g.required = true → Gen.tagOf md tb gs g.name ≠ .ok none) ∧
        ∀ n s, eval md P (n + 6) (selfScope t) (selfVars t tb) (.method (.var c!"self") (Heck.snake f.ident ++ c!"_type") []) s =
          result (Gen.tagOf md tb gs g.name) (encOption (encEnum e evs) g.required) s := by
  obtain ⟨g', e0, e1, e2, -, hk⟩ := A.fields i f hf
  rw [hg] at e0
  cases e0
  have hmem : f ∈ t.fields := List.mem_of_getElem? hf
  have ht := A.tags f hmem
  unfold Gen.unionTagOk at ht
  rw [hty] at ht
  simp only [List.any_eq_true, Bool.and_eq_true, beq_iff_eq] at ht
  obtain ⟨ft, hft, ⟨h1, h2⟩, h3⟩ := ht
  split at h3
  swap
  · cases h3
  rename_i e' evs b hte
  simp only [Bool.and_eq_true, beq_iff_eq] at h3
  obtain ⟨rfl, hids⟩ := h3
  obtain ⟨j, hj⟩ := List.mem_iff_getElem?.mp hft
  obtain ⟨gt, hgt, k1, k2, -, hkt⟩ := A.fields j ft hj
  obtain ⟨fn, hfn, hfo⟩ := A.accessor ft hft
  have hacc := fun md tb n s => A.invoke_plain (md := md) (tb := tb) (n := n) hj hgt (by rw [hte]; rfl) hfn s
  have hfind : gs.find? (fun x => x.name == g.name ++ c!"_type") = some gt := by
    obtain ⟨hj', hj''⟩ := List.getElem?_eq_some_iff.mp hgt
    have := Gen.find_name (Gen.names_nodup A.compiled) ⟨j, hj'⟩
    simp only [List.get_eq_getElem, hj''] at this
    rw [← this, k1, h1, e1]
  rw [hte] at hkt
  obtain ⟨xs, d, hkd, hx, -⟩ := Gen.kindOf_enum hkt
  have hlen := (enumValues_some hx).2.1
  have hl2 := congrArg List.length hids
  simp only [List.length_map, List.length_cons] at hl2
  refine ⟨evs, b, xs, by have := A.types ft hft; rwa [hte] at this, hids, hx, ?_⟩
  intro md tb
  rw [h2, ← e2] at k2
  have hmeth : ∀ n s, eval md P (n + 6) (selfScope t) (selfVars t tb)
      (.method (.var c!"self") (Heck.snake f.ident ++ c!"_type") []) s =
        result (Gen.accessor md tb gs gt) (encOption (encResult ft.ty gt.kind) gt.required) s := by
    intro n s
    rw [← hacc md tb n s, eval_method, bind_val (eval_var (v := tableValue t tb) rfl s), evalList_nil,
      bind_val (pure_apply _ _)]
    simp only [tableValue]
    rw [← h1, hfo]
    rfl
  clear hacc hgt hfn
  rw [hte] at hmeth
  obtain ⟨nm, sl, kd, rq⟩ := gt
  simp only at hkd k2 hmeth
  subst hkd
  subst k2
  have hT : Gen.tagOf md tb gs g.name = Gen.accessor md tb gs ⟨nm, sl, .enum (Gen.enumBaseSTy b) xs d, g.required⟩ := by
    unfold Gen.tagOf
    rw [hfind]
    rfl
  refine ⟨?_, ?_, ?_⟩
  · intro i hi
    rw [hT] at hi
    unfold Gen.accessor at hi
    obtain ⟨x, hx1, hx2⟩ := Res.bind_eq_ok.mp hi
    have := Gen.okOr_inv hx2
    subst this
    have := Gen.get_enum_lt hx1
    omega
  · intro hr hc
    rw [hT] at hc
    unfold Gen.accessor at hc
    obtain ⟨x, hx1, hx2⟩ := Res.bind_eq_ok.mp hc
    unfold okOr at hx2
    rw [hr] at hx2
    cases x with
    | none => cases hx2
    | some x => cases hx2
  · intro n s
    rw [hmeth n s, hT]
    rfl

theorem ctor_union {q : QIdent} {es : List Str} {us : List (Str × Ty)} (hn : P.names.Nodup)
    (hp : Placed P (modOf q) (unionItems (QIdent.simple q) es us)) {c : Str} (hc : c ∈ us.map (·.1)) (v : Value) :
    ctorValue P (.item (modOf q) (QIdent.simple q)) c v = some (.union (modOf q) (QIdent.simple q) c v) := by
  simp only [ctorValue, union_item hp hn]
  rw [if_pos hc]

theorem unionVariant_name {ns : Option QIdent} {v : Ir.UnionVariant} {u : Str × Ty} (h : unionVariant ns v = some u) :
    u.1 = v.ident := by
  simp only [unionVariant, Option.bind_eq_bind, Option.bind_eq_some_iff, Option.pure_def, Option.some.injEq] at h
  obtain ⟨_, _, i, hi, rfl⟩ := h
  exact formatIdent_eq hi

/-- The accessor of a union. -/
theorem TableAt.invoke_union (A : TableAt gm P t gs) {tb : Butte.Table} {i : Nat} {f : Ir.Field} {g : GField}
    (hf : t.fields[i]? = some f) (hg : gs[i]? = some g) {q e : QIdent} {vs : List Ir.UnionVariant}
    (hty : f.ty = .union q e vs) {fn : Fn} (hfn : Rs.accessor (tName t) (tNs t) f = some fn) (s : St) :
    invoke md P (n + 9) (selfScope t) fn [tableValue t tb] s =
      result (Gen.accessor md tb gs g) (encOption (encResult f.ty g.kind) g.required) s := by
  obtain ⟨g', e0, e1, e2, -, hk⟩ := A.fields i f hf
  rw [hg] at e0
  cases e0
  have hmem : f ∈ t.fields := List.mem_of_getElem? hf
  obtain ⟨evs, b, xs, hte, hids, hx, htag⟩ := A.tag hf hg hty
  obtain ⟨hlt, hnone, hev⟩ := htag md tb
  have hut := A.types f hmem
  rw [hty] at hut hk
  obtain ⟨es, us, -, hus, hpl⟩ := hut
  have hnames := map_of_forall₂ (f := fun v : Ir.UnionVariant => v.ident) (g := fun u : Str × Ty => u.1)
    (fun a b h => unionVariant_name h) (mapM_forall₂ hus)
  have hpaths : ∀ x ∈ q :: e :: vs.flatMap fun v => Gen.tyPaths v.ty, Leads P (selfScope t) (tNs t) x := by
    intro x hx
    refine A.leads _ (.inr rfl) rfl x ?_
    simp only [Gen.paths, List.mem_flatMap]
    refine ⟨f, hmem, List.mem_append_right _ ?_⟩
    rw [hty]
    exact hx
  have hq : resolve P (selfScope t) (QIdent.relative q (tNs t)) = some (.item (modOf q) (QIdent.simple q)) :=
    hpaths q (by simp)
  have he : resolve P (selfScope t) (QIdent.relative e (tNs t)) = some (.item (modOf e) (QIdent.simple e)) :=
    hpaths e (by simp)
  obtain ⟨-, fs, hfs, hkd⟩ := Gen.kindOf_union_iff.mp hk
  have hkd := hkd.symm
  simp only [Rs.accessor, Option.bind_eq_bind, Option.bind_eq_some_iff, Option.pure_def, Option.some.injEq] at hfn
  obtain ⟨snake, hs, ret, -, w, -, dflt, -, body, hb, rfl⟩ := hfn
  have := formatIdent_eq hs
  subst this
  unfold accessorBody at hb
  rw [hty] at hb
  simp only [unionBody, Option.bind_eq_bind, Option.bind_eq_some_iff, Option.pure_def, Option.some.injEq] at hb
  obtain ⟨up, hup, ep, hep, tag, htg, arms, harms, rfl⟩ := hb
  have := pathTokens_eq hup
  subst this
  have := pathTokens_eq hep
  subst this
  have := formatIdent_eq htg
  subst this
  have hfa := mapM_forall₂ harms
  have hff := mapM_forall₂ hfs
  have hndup := (enumValues_some hx).2.2.2.1
  rw [hids, List.nodup_cons] at hndup
  rw [invoke_apply (vs := selfVars t tb) (by rfl), evalBlock_nil]
  -- the arms
  have hlen : arms.length = vs.length := hfa.length_eq.symm
  have hmp : ∀ c ∈ evs.map (·.ident), ∀ c', matchPat P (selfScope t) (.variant (.path (QIdent.relative e (tNs t))) c)
      (.variant (modOf e) (QIdent.simple e) c') = some (c == c') := fun c hc c' => matchPat_variant A.nodup hte he hx hc c'
  have hget : ∀ k (v : Ir.UnionVariant) (_ : vs[k]? = some v) w, typeToken (tNs t) v.ty (some fwdPath) true = some w →
      ∃ F, follows v.ty = some F ∧ ∃ h : k < fs.length, F.fty = fs[k] ∧ ∀ n s,
        eval md P (n + 3) (selfScope t) (selfVars t tb) (getExpr (tName t) f w .none) s =
          result (tb.get md fs[k] g.slot none) (encOption (encInner F fs[k]) false) s := by
    intro k v hv w hw
    obtain ⟨fk, hfk, hfo⟩ := (forall₂_getElem? hff).1 hv
    obtain ⟨hlt, rfl⟩ := List.getElem?_eq_some_iff.mp hfk
    rw [← follows_fty, Option.map_eq_some_iff] at hfo
    obtain ⟨F, hF, hFf⟩ := hfo
    have hvm := List.mem_of_getElem? hv
    refine ⟨F, hF, hlt, hFf, ?_⟩
    intro n s
    rw [← get_cast hFf]
    have hFt := followTy_token (sc := selfScope t) (ns := tNs t) A.nodup A.hygienic (.inr rfl) (A.members f hmem q e vs hty v hvm)
      (fun x hx => hpaths x (by simp only [List.mem_cons, List.mem_flatMap]; exact .inr (.inr ⟨v, hvm, hx⟩))) hw hF
    refine A.eval_get hf hg hFt (dv := .none) (fun s => by rw [eval_none]; rfl) ?_ s
    cases F <;> rfl
  have hacc : Gen.accessor md tb gs g = (do
      let x ← g.kind.fetch md tb g.slot (Gen.tagOf md tb gs g.name)
      okOr g.name g.required x) := rfl
  rw [hacc, ← hkd]
  clear hacc
  unfold endCall
  rw [eval_ok, bind_apply, eval_match, bind_apply, eval_try, bind_apply, hev n s]
  generalize hT : Gen.tagOf md tb gs g.name = T at *
  cases T with
  | panic => rfl
  | err x => rfl
  | ok x =>
  have hv0 : encEnum e evs 0 = some (.variant (modOf e) (QIdent.simple e) c!"None") := by rw [encEnum_eq, hids]; rfl
  have hvS : ∀ {k : Nat} {v : Ir.UnionVariant}, vs[k]? = some v →
      encEnum e evs (k + 1) = some (.variant (modOf e) (QIdent.simple e) v.ident) := by
    intro k v hv
    rw [encEnum_eq, hids]
    simp [hv]
  have hin : ∀ {k : Nat} {v : Ir.UnionVariant}, vs[k]? = some v → v.ident ∈ evs.map (·.ident) := by
    intro k v hv
    rw [hids]
    exact List.mem_cons_of_mem _ (List.mem_map_of_mem (List.mem_of_getElem? hv))
  have hctor : ∀ {k : Nat} {v : Ir.UnionVariant}, vs[k]? = some v → ∀ x,
      ctorValue P (.item (modOf q) (QIdent.simple q)) v.ident x = some (.union (modOf q) (QIdent.simple q) v.ident x) := by
    intro k v hv x
    refine ctor_union A.nodup hpl ?_ x
    rw [hnames]
    exact List.mem_map_of_mem (List.mem_of_getElem? hv)
  cases hr : f.required with
  | true =>
    rw [hr] at e2
    rw [e2] at hnone ⊢
    simp only [hr, if_true] at hfa ⊢
    cases x with
    | none => exact absurd rfl (hnone rfl)
    | some j =>
    have hj := hlt j rfl
    have hm : ∀ c (k : Nat) b, arms[k]? = some b → ∃ x, (vs.map (·.ident))[k]? = some x ∧
        matchPat P (selfScope t) b.1 (.variant (modOf e) (QIdent.simple e) c) = some (x == c) := by
      intro c k b hb
      obtain ⟨v, hv, hab⟩ := (forall₂_getElem? hfa).2 hb
      obtain ⟨w, -, rfl⟩ := requiredArm_eq hab
      exact ⟨v.ident, by simp [hv], hmp _ (hin hv) _⟩
    cases j with
    | zero =>
      rw [fetch_zero]
      simp only [result, encOption, if_true, hv0, need_some, bind_apply, pure_apply]
      rw [(choose_member (hm c!"None")).2 hndup.1 (by rw [hmp _ (by rw [hids]; simp)]; rfl)]
      simp only [need_some, pure_apply, eval_ret, bind_apply,
        eval_err (eval_missing A.hygienic (sc := selfScope t) (.inr rfl) _ _), okOr, Res.ok_bind, e1, if_true]
    | succ k =>
      have hk : k < vs.length := by omega
      have hv : vs[k]? = some vs[k] := List.getElem?_eq_getElem hk
      obtain ⟨a, ha, hra⟩ := (forall₂_getElem? hfa).1 hv
      obtain ⟨w, hw, rfl⟩ := requiredArm_eq hra
      obtain ⟨F, hF, hkl, hFf, hge⟩ := hget k _ hv w hw
      rw [fetch_succ hkl]
      simp only [result, encOption, if_true, hvS hv, need_some, bind_apply, pure_apply]
      rw [(choose_member (hm vs[k].ident)).1 hndup.2 (by simp [hv]) ha]
      simp only [need_some, pure_apply]
      rw [eval_ctor (t := .path _) hq, bind_apply, eval_try, bind_apply, eval_method, bind_apply, eval_try, bind_apply, hge]
      generalize tb.get md fs[k] g.slot none = R
      cases R with
      | panic => rfl
      | err x => rfl
      | ok x =>
        cases x with
        | none =>
          simp only [result, encOption, if_false, need_some, bind_apply, pure_apply, evalList_cons,
            eval_missing A.hygienic (sc := selfScope t) (.inr rfl), evalList_nil, runtimeMethod, if_true, okOr,
            Bool.false_eq_true, Res.ok_bind, e1, Option.map_none]
        | some x =>
          have := encResult_member (q := q) (e := e) hkl hv hF x
          cases hen : encInner F fs[k] x with
          | none =>
            rw [hen] at this
            simp [result, encOption, this, hen, need, bind_apply, stuck, pure_apply, okOr, hty]
          | some y =>
            rw [hen] at this
            simp only [result, encOption, if_false, need_some, bind_apply, pure_apply, evalList_cons, hen, Option.map_some,
              eval_missing A.hygienic (sc := selfScope t) (.inr rfl), evalList_nil, runtimeMethod, if_true, okOr,
              Bool.false_eq_true, Res.ok_bind, hctor hv, this, hty]
  | false =>
    rw [hr] at e2
    rw [e2]
    simp only [hr, Bool.false_eq_true, if_false] at hfa ⊢
    have hor : ∀ v, matchPat P (selfScope t)
        (.or .none (.some (.variant (.path (QIdent.relative e (tNs t))) c!"None"))) (.some v) =
          matchPat P (selfScope t) (.variant (.path (QIdent.relative e (tNs t))) c!"None") v := by
      intro v
      simp only [matchPat, Option.bind_eq_bind, Option.bind_some, Bool.false_or, Option.pure_def]
      cases matchPat P (selfScope t) (.variant (.path (QIdent.relative e (tNs t))) c!"None") v <;> rfl
    have hm : ∀ c (k : Nat) b, arms[k]? = some b → ∃ x, (vs.map (·.ident))[k]? = some x ∧
        matchPat P (selfScope t) b.1 (.some (.variant (modOf e) (QIdent.simple e) c)) = some (x == c) := by
      intro c k b hb
      obtain ⟨v, hv, hab⟩ := (forall₂_getElem? hfa).2 hb
      obtain ⟨w, -, rfl⟩ := optionalArm_eq hab
      exact ⟨v.ident, by simp [hv], by simp only [matchPat]; exact hmp _ (hin hv) _⟩
    cases x with
    | none =>
      rw [fetch_none]
      simp only [result, encOption, Bool.false_eq_true, if_false, need_some, bind_apply, pure_apply]
      rw [chooseArm_hit (j := arms.length) (a := (.or .none (.some (.variant (.path (QIdent.relative e (tNs t))) c!"None")),
        .none)) (by simp) (by
          intro k hk b hb
          rw [List.getElem?_append_left hk] at hb
          obtain ⟨v, hv, hab⟩ := (forall₂_getElem? hfa).2 hb
          obtain ⟨w, -, rfl⟩ := optionalArm_eq hab
          rfl) (by rfl)]
      simp only [need_some, pure_apply, eval_none, okOr, Res.ok_bind, Bool.false_eq_true, if_false, bind_apply]
    | some j =>
    have hj := hlt j rfl
    cases j with
    | zero =>
      rw [fetch_zero]
      simp only [result, encOption, Bool.false_eq_true, if_false, hv0, need_some, bind_apply, pure_apply, Option.map_some]
      rw [(choose_member (hm c!"None")).2 hndup.1 (by rw [hor, hmp _ (by rw [hids]; simp)]; rfl)]
      simp only [need_some, pure_apply, eval_none, okOr, Res.ok_bind, Bool.false_eq_true, if_false, bind_apply]
    | succ k =>
      have hk : k < vs.length := by omega
      have hv : vs[k]? = some vs[k] := List.getElem?_eq_getElem hk
      obtain ⟨a, ha, hra⟩ := (forall₂_getElem? hfa).1 hv
      obtain ⟨w, hw, rfl⟩ := optionalArm_eq hra
      obtain ⟨F, hF, hkl, hFf, hge⟩ := hget k _ hv w hw
      rw [fetch_succ hkl]
      simp only [result, encOption, Bool.false_eq_true, if_false, hvS hv, need_some, bind_apply, pure_apply, Option.map_some]
      rw [(choose_member (hm vs[k].ident)).1 hndup.2 (by simp [hv]) ha]
      simp only [need_some, pure_apply]
      rw [eval_mapCtor (t := .path _) hq, bind_apply, eval_try, bind_apply, hge]
      generalize tb.get md fs[k] g.slot none = R
      cases R with
      | panic => rfl
      | err x => rfl
      | ok x =>
        cases x with
        | none =>
          simp only [result, encOption, if_false, need_some, bind_apply, pure_apply, okOr,
            Bool.false_eq_true, Res.ok_bind, Option.map_none]
        | some x =>
          have := encResult_member (q := q) (e := e) hkl hv hF x
          cases hen : encInner F fs[k] x with
          | none =>
            rw [hen] at this
            simp [result, encOption, this, hen, need, bind_apply, stuck, pure_apply, okOr, hty]
          | some y =>
            rw [hen] at this
            simp only [result, encOption, if_false, need_some, bind_apply, pure_apply, hen, Option.map_some, okOr,
              Bool.false_eq_true, Res.ok_bind, hctor hv, this, hty]

end

end Butte.Rs
