import Verif.Rs.Enums
/-
`Default` for the arguments of a table; `get_root`; the conversions and `Follow` of a table; `get_type` of a union.
-/
namespace Butte.Rs
open Ir (QIdent Node Ident itemsOf Translates)
open Gen (formatIdent formatIdent_eq GField Kind Args kindOf)

section
variable {gm md : Mode} {P : Program} {t : Ir.Table} {gs : List GField} {n : Nat}

/-! ### `Default` for the arguments -/

/-- The scope of `default`. -/
abbrev argsScope (t : Ir.Table) : Scope := ⟨tMod t, [], some (.item (tMod t) (tName t ++ c!"Args"))⟩

theorem TableAt.default_arg (A : TableAt gm P t gs) {f : Ir.Field} (hf : f ∈ t.fields) {k : Kind}
    (hk : kindOf f.ty f.default = some k) (hr : (!f.required || f.ty.isScalar) = true) {x : Str × Expr}
    (hx : argDefault (tNs t) f = some x) : x.1 = f.ident ∧ ∃ a, k.defaultArg f.required = some a ∧
      ∃ v, encArg f.ty k f.required a = some v ∧ ∀ s, eval md P (n + 2) (argsScope t) [] x.2 s = .val v s := by
  simp only [argDefault, Option.bind_eq_bind, Option.bind_eq_some_iff, Option.pure_def, Option.some.injEq] at hx
  obtain ⟨tok, htok, e, he, rfl⟩ := hx
  refine ⟨rfl, ?_⟩
  have hsc : Scope.Ok (argsScope t) := .inl rfl
  have ht := A.types f hf
  have hq : ∀ q ∈ Gen.tyPaths f.ty, Leads P (argsScope t) (tNs t) q := by
    intro q hq
    refine A.leads _ hsc rfl q ?_
    simp only [Gen.paths, List.mem_flatMap]
    exact ⟨f, hf, List.mem_append_left _ hq⟩
  unfold argDefaultExpr at he
  generalize f.ty = ty at *
  generalize f.default = d at *
  generalize f.required = req at *
  have hnone : ty.isScalar = false → req = false ∧ ∀ s, eval md P (n + 2) (argsScope t) [] e s = .val .none s := by
    intro h
    rw [h] at he hr
    simp only [Bool.not_false, if_true, Option.some.injEq] at he
    subst he
    exact ⟨by simpa using hr, fun s => by rw [eval_none]; rfl⟩
  cases ty with
  | builtin b =>
    simp only [typeToken, Option.some.injEq] at htok
    subst htok
    simp only [Ir.Ty.isScalar, Ir.Ty.isEnum, Bool.not_true, Bool.false_eq_true, if_false] at he
    cases d with
    | none =>
      simp only [Option.some.injEq] at he
      subst he
      simp only [kindOf, Option.some.injEq] at hk
      subst hk
      refine ⟨_, rfl, _, rfl, fun s => ?_⟩
      rw [eval_call_prim (ty := Gen.builtinSTy b) (by
        simp only [defOf, builtinName]
        exact resolve_prim A.hygienic hsc _)]
      rfl
    | some d =>
      cases d with
      | ident i => simp at he
      | scalar l =>
        simp only [Option.map_eq_some_iff] at he
        obtain ⟨l', hl, rfl⟩ := he
        simp only [kindOf, Option.bind_eq_bind, Option.bind_eq_some_iff, Option.pure_def, Option.some.injEq] at hk
        obtain ⟨v, hv, rfl⟩ := hk
        exact ⟨_, rfl, _, rfl, fun s => eval_lit (lit_value hl hv) s⟩
  | enum q vs b =>
    have hw := enum_token htok
    subst hw
    simp only [Ir.Ty.isScalar, Ir.Ty.isEnum, Bool.not_true, Bool.false_eq_true, if_false] at he
    simp only [kindOf, Option.bind_eq_bind, Option.bind_eq_some_iff] at hk
    obtain ⟨xs, hx, hk⟩ := hk
    obtain ⟨-, hlen, hne, -, -⟩ := enumValues_some hx
    have hl : Leads P (argsScope t) (tNs t) q := hq q (by simp [Gen.tyPaths])
    cases d with
    | none =>
      simp only [Option.some.injEq] at he
      subst he
      simp only [Option.pure_def, Option.some.injEq] at hk
      subst hk
      have E : EnumAt P q b vs xs := ⟨A.hygienic, A.nodup, hx, ht⟩
      obtain ⟨vl, -, hn, -, -, -, -, hd, -⟩ := E.traits
      cases vs with
      | nil => exact absurd rfl hne
      | cons v vs =>
        have h0 : 0 < xs.length := by rw [hlen]; simp
        refine ⟨⟨0, h0⟩, by simp [Kind.defaultArg, h0], .variant (modOf q) (QIdent.simple q) v.ident, rfl, fun s => ?_⟩
        rw [eval_call_item (m := modOf q) (k := QIdent.simple q) (by simp only [defOf]; exact hl) hd, evalList_nil, bind_val (pure_apply _ _)]
        exact E.invoke_default rfl hn s
    | some d =>
      simp only [Option.bind_eq_some_iff] at hk
      obtain ⟨j, hj, hk⟩ := hk
      split at hk
      · rename_i hlt
        simp only [Option.pure_def, Option.some.injEq] at hk
        subst hk
        cases d with
        | scalar s => simp at he
        | ident i =>
          simp only [if_true, Option.map_eq_some_iff] at he
          obtain ⟨i', hi, rfl⟩ := he
          have := formatIdent_eq hi
          subst this
          simp only [Gen.enumDefault] at hj
          obtain ⟨h1, h2, -⟩ := List.findIdx?_eq_some_iff_getElem.mp hj
          have h2 : vs[j].ident = i' := by simpa using h2
          refine ⟨_, rfl, .variant (modOf q) (QIdent.simple q) i', ?_, fun s => ?_⟩
          · simp [encArg, encEnum, List.getElem?_eq_getElem h1, h2]
          · exact eval_variant A.nodup ht hl hx (by rw [← h2]; exact List.mem_map_of_mem (List.getElem_mem h1)) s
      · cases hk
  | struct q fs => exact ht.elim
  | string =>
    obtain ⟨rfl, h⟩ := hnone rfl
    cases d with
    | some d => simp [kindOf] at hk
    | none => simp only [kindOf, Option.some.injEq] at hk; subst hk; exact ⟨none, rfl, .none, rfl, h⟩
  | array e =>
    obtain ⟨rfl, h⟩ := hnone rfl
    cases d with
    | some d => simp [kindOf] at hk
    | none =>
      simp only [kindOf, Option.bind_eq_bind, Option.bind_eq_some_iff, Option.pure_def, Option.some.injEq] at hk
      obtain ⟨e', he, rfl⟩ := hk
      exact ⟨none, rfl, .none, rfl, h⟩
  | table q =>
    obtain ⟨rfl, h⟩ := hnone rfl
    cases d with
    | some d => simp [kindOf] at hk
    | none => simp only [kindOf, Option.some.injEq] at hk; subst hk; exact ⟨none, rfl, .none, rfl, h⟩
  | union q e vs =>
    obtain ⟨rfl, h⟩ := hnone rfl
    obtain ⟨-, e', he, rfl⟩ := Gen.kindOf_union_iff.mp hk
    exact ⟨none, rfl, .none, rfl, h⟩

/-- What belongs together: a field and what is generated for it. -/
theorem Compiled.forall₂ (C : Compiled gm t gs) :
    List.Forall₂ (fun (f : Ir.Field) (g : GField) => f ∈ t.fields ∧ g.required = f.required ∧ kindOf f.ty f.default = some g.kind)
      t.fields gs := by
  rw [List.forall₂_iff_get]
  refine ⟨C.length.symm, ?_⟩
  intro i h1 h2
  obtain ⟨g, e1, -, e2, -, e3⟩ := C.fields i _ (List.getElem?_eq_getElem h1)
  rw [List.getElem?_eq_getElem h2] at e1
  cases e1
  exact ⟨List.get_mem _ _, e2, e3⟩

theorem TableAt.eval_defaults (A : TableAt gm P t gs) {fs : List Ir.Field} {hs : List GField}
    (h : List.Forall₂ (fun (f : Ir.Field) (g : GField) => f ∈ t.fields ∧ g.required = f.required ∧
      kindOf f.ty f.default = some g.kind) fs hs) (hc : canDefault fs = true) {ds : List (Str × Expr)}
    (hd : fs.mapM (argDefault (tNs t)) = some ds) : ∃ args, Gen.defaultArgs hs = some args ∧
      ∃ vs : List Value, encFields fs hs args = some ((fs.map (·.ident)).zip vs) ∧ ds.map (·.1) = fs.map (·.ident) ∧
        vs.length = fs.length ∧
        ∀ s, evalList (fun x : Str × Expr => eval md P (n + 2) (argsScope t) [] x.2) ds s = .val vs s := by
  induction h generalizing ds with
  | nil =>
    simp only [List.mapM_nil, Option.pure_def, Option.some.injEq] at hd
    subst hd
    exact ⟨(), rfl, [], rfl, rfl, rfl, fun s => rfl⟩
  | @cons f g fs hs hfg _ ih =>
    simp only [List.mapM_cons, Option.pure_def, Option.bind_eq_bind, Option.bind_eq_some_iff, Option.some.injEq] at hd
    obtain ⟨x, hx, ds', hds, rfl⟩ := hd
    simp only [canDefault, List.all_cons, Bool.and_eq_true] at hc
    obtain ⟨hc1, hc2⟩ := hc
    obtain ⟨args, ha, vs, hv, hn, hlen, he⟩ := ih hc2 hds
    obtain ⟨hxn, a, hda, v, hev, hee⟩ := A.default_arg hfg.1 hfg.2.2 hc1 hx
    have hreq := hfg.2.1
    obtain ⟨name, slot, k, req⟩ := g
    simp only at hreq hda hev
    subst hreq
    refine ⟨(a, args), by simp [Gen.defaultArgs, hda, ha], v :: vs, ?_, by simp [hxn, hn], by simp [hlen], fun s => ?_⟩
    · simp [encFields, hev, hv]
    · rw [evalList_cons, bind_val (hee s), bind_val (he s)]
      rfl

/-- `Default` of the arguments gives the default of every field. -/
theorem TableAt.call_default (A : TableAt gm P t gs) (hc : canDefault t.fields = true) : ∃ args v,
    Gen.defaultArgs gs = some args ∧ encArgs t gs args = some v ∧
      callFn md P (n + 3) (tMod t) (tName t ++ c!"Args") c!"default" [] = pure v := by
  obtain ⟨ds, hds, hfn⟩ := A.default hc
  obtain ⟨args, ha, vs, hv, hn, hlen, he⟩ := A.eval_defaults (md := md) (n := n) A.forall₂ hc hds
  obtain ⟨decl, hi, hdecl⟩ := A.argsItem
  refine ⟨args, _, ha, by rw [encArgs, hv]; rfl, ?_⟩
  funext s
  rw [callFn_eq hfn, invoke_apply (vs := []) rfl]
  refine endCall_val ?_
  simp only [defaultFn, evalBlock]
  rw [eval_struct (m := tMod t) (k := tName t ++ c!"Args") (by simp only [defOf, selfTy]; exact resolve_self) hi
    (by rw [hdecl, hn]) (by rw [hn]; exact A.ids), bind_val (he s), hn]
  rfl

/-! ### Tables -/

/-- The scope of the functions of a table. -/
abbrev tScope (t : Ir.Table) (gs : List Str) : Scope := ⟨tMod t, gs, some (.item (tMod t) (tName t))⟩

theorem TableAt.eval_table (A : TableAt gm P t gs) {g : List Str} {tb : Butte.Table} {vars : Vars} (s : St) :
    eval md P (n + 2) (tScope t g) ((c!"table", .table tb) :: vars) (.struct selfTy [(c!"table", .var c!"table")]) s =
      .val (tableValue t tb) s := by
  rw [eval_struct (m := tMod t) (k := tName t) (name := tName t) (gs := [c!"B"]) (decl := [(c!"table", tableB)])
    (by simp only [defOf, selfTy]; exact resolve_self) A.item rfl (by simp)]
  rfl

/-- `get_root`: the root of the buffer. -/
theorem TableAt.call_getRoot (A : TableAt gm P t gs) (buf : Bytes) :
    callFn md P (n + 3) (tMod t) (tName t) c!"get_root" [.bytes buf] =
      result (Table.getRoot md buf) fun tb => some (tableValue t tb) := by
  funext s
  rw [callFn_eq A.getRoot, invoke_apply (vs := [(c!"buf", .bytes buf)]) (by simp [bindParams, getRootFn, unbindable])]
  have hsc : Scope.Ok (tScope t [c!"B"]) := .inr rfl
  have e1 : ∀ s, eval md P (n + 2) (tScope t [c!"B"]) [(c!"buf", .bytes buf)] (.call (.path [c!"butte", c!"Table"]) c!"get_root"
      [.var c!"buf"]) s = result (Table.getRoot md buf) (fun tb => some (.table tb)) s := by
    intro s
    rw [eval_call_butte (b := c!"Table") (by simp only [defOf]; exact resolve_butte A.hygienic hsc _)]
    rfl
  simp only [getRootFn, evalBlock]
  rw [endCall, bind_apply, eval_try, bind_apply, e1]
  cases Table.getRoot md buf with
  | panic => rfl
  | err e => rfl
  | ok tb =>
    have e2 := A.eval_table (md := md) (n := n) (g := [c!"B"]) (tb := tb) (vars := [(c!"buf", .bytes buf)]) s
    have e3 : eval md P (n + 3) (tScope t [c!"B"]) [(c!"table", .table tb), (c!"buf", .bytes buf)]
        (.ok (.struct selfTy [(c!"table", .var c!"table")])) s = .val (.ok (tableValue t tb)) s := by
      rw [eval_ok, bind_val e2]
      rfl
    change (match eval md P (n + 3) (tScope t [c!"B"]) [(c!"table", .table tb), (c!"buf", .bytes buf)]
        (.ok (.struct selfTy [(c!"table", .var c!"table")])) s with | Out.ret v s => Out.val v s | o => o) = _
    rw [e3]
    rfl

theorem TableAt.invoke_newTable (A : TableAt gm P t gs) {f : Fn} {g : List Str} (hg : g = [] ∨ g = [c!"B"]) {buf : Bytes} {loc : Nat}
    (hp : bindParams f.params [.bytes buf, .usize loc] = some [(c!"buf", .bytes buf), (c!"loc", .usize loc)])
    (hb : f.body = newTableBody.1) (hv : f.value = newTableBody.2) :
    invoke md P (n + 3) (tScope t g) f [.bytes buf, .usize loc] = pure (.ok (tableValue t ⟨buf, loc⟩)) := by
  funext s
  have hsc : Scope.Ok (tScope t g) := hg
  rw [invoke_apply hp, hb, hv]
  have e1 : eval md P (n + 3) (tScope t g) [(c!"buf", .bytes buf), (c!"loc", .usize loc)] (.call (.path [c!"butte", c!"Table"]) c!"new"
      [.var c!"buf", .var c!"loc"]) s = .val (.table ⟨buf, loc⟩) s := by
    rw [eval_call_butte (b := c!"Table") (by simp only [defOf]; exact resolve_butte A.hygienic hsc _)]
    rfl
  refine endCall_val ?_
  simp only [newTableBody, evalBlock]
  rw [bind_val e1, eval_ok, bind_val (A.eval_table s)]
  rfl

end

section
variable {gm md : Mode} {E : List Ast.Element} {out : List Node} {P : Program} {n : Nat}

/-- The functions of a table that belong to traits. -/
theorem Setting.table_traits (S : Setting gm E out P) {p : List Ident} {t : Ir.Table} (hx : (p, Node.table t) ∈ itemsOf out) :
    traitFn P (tMod t) (tName t) (.std c!"From") c!"from" = some ([c!"B"], fromTableFn) ∧
    traitFn P (tMod t) (tName t) (.butte c!"Follow") c!"follow" = some ([], followFn) ∧
    traitFn P (tMod t) (tName t) (.butte c!"FollowBuf") c!"follow_buf" = some ([c!"B"], followBufFn) := by
  obtain ⟨args, dflt, adds, consts, accs, ds, -, h2, -, -, -, hp⟩ := S.table hx
  have hd : dflt = [] ∨ dflt = [argsDefault (QIdent.simple t.ident) ds] := by tauto
  have own : (⟨tMod t, .type, tName t⟩ : Gen.Item) ∈ P.names :=
    hp.mem_names ⟨tableStruct (tName t), by simp [tableItems], rfl⟩
  have pl : Plain (tName t) := .of_reserved (S.hygienic.plain own)
  have hi := table_impls hp S.nodup hd pl
  have h1 := resolve_from (P := P) (sc := ⟨tMod t, [c!"B"], none⟩) S.hygienic (.inr rfl)
  have h2 := resolve_butte (P := P) (sc := ⟨tMod t, [], none⟩) S.hygienic (.inl rfl)
  have h3 := resolve_butte (P := P) (sc := ⟨tMod t, [c!"B"], none⟩) S.hygienic (.inr rfl)
  unfold traitFn
  rw [hi]
  refine ⟨?_, ?_, ?_⟩
  · simp [defOf, followPath, h1, h2, h3, fromTableFn]
  · simp [defOf, followPath, h1, h2, h3, followFn]
  · simp [defOf, followPath, h1, h2, h3, followBufFn]

/-- `Follow` for a table, as the model of the runtime follows tables. -/
theorem Setting.call_follow (S : Setting gm E out P) {p : List Ident} {t : Ir.Table} (hx : (p, Node.table t) ∈ itemsOf out)
    {gs : List GField} (hc : Gen.compileTable gm t = some gs) (buf : Bytes) (loc : Nat) :
    callTrait md P (n + 3) (tMod t) (tName t) (.butte c!"Follow") c!"follow" [.bytes buf, .usize loc] =
      result (FTy.follow md .table buf loc) fun tb => some (tableValue t tb) := by
  rw [callTrait_eq (S.table_traits hx).2.1, (S.tableAt hx hc).invoke_newTable (.inl rfl)
    (by simp [bindParams, followFn, unbindable]) rfl rfl]
  rfl

/-- `FollowBuf` for a table. -/
theorem Setting.call_followBuf (S : Setting gm E out P) {p : List Ident} {t : Ir.Table} (hx : (p, Node.table t) ∈ itemsOf out)
    {gs : List GField} (hc : Gen.compileTable gm t = some gs) (buf : Bytes) (loc : Nat) :
    callTrait md P (n + 3) (tMod t) (tName t) (.butte c!"FollowBuf") c!"follow_buf" [.bytes buf, .usize loc] =
      result (FTy.follow md .table buf loc) fun tb => some (tableValue t tb) := by
  rw [callTrait_eq (S.table_traits hx).2.2, (S.tableAt hx hc).invoke_newTable (.inr rfl)
    (by simp [bindParams, followBufFn, unbindable]) rfl rfl]
  rfl

/-- `From` for a table. -/
theorem Setting.call_from (S : Setting gm E out P) {p : List Ident} {t : Ir.Table} (hx : (p, Node.table t) ∈ itemsOf out)
    {gs : List GField} (hc : Gen.compileTable gm t = some gs) (tb : Butte.Table) :
    callTrait md P (n + 2) (tMod t) (tName t) (.std c!"From") c!"from" [.table tb] = pure (tableValue t tb) := by
  funext s
  rw [callTrait_eq (S.table_traits hx).1, invoke_apply (vs := [(c!"table", .table tb)])
    (by simp [bindParams, fromTableFn, unbindable])]
  exact endCall_val ((S.tableAt hx hc).eval_table s)

/-! ### Enums and unions -/

/-- What the program has for an enum of the schema whose values are in order. -/
theorem Setting.enumAt (S : Setting gm E out P) {p : List Ident} {e : Ir.Enum} (hx : (p, Node.enum e) ∈ itemsOf out)
    {xs : List (SVal (Gen.enumBaseSTy e.base))} (hv : Gen.enumValues (Gen.enumBaseSTy e.base) e.variants = some xs) :
    EnumAt P e.ident e.base e.variants xs :=
  ⟨S.hygienic, S.nodup, hv, S.hasTy (ty := .enum e.ident e.variants e.base) ⟨_, hx, rfl⟩⟩

/-- The variants of the enum that belongs to a union. -/
def tagVariants (u : Ir.Union) : List Ir.EnumVariant :=
  ⟨c!"None", some 0, []⟩ :: u.variants.map fun v => ⟨v.ident, none, v.doc⟩

/-- `get_type`: the variant of the enum with the same name. -/
theorem Setting.call_getType (S : Setting gm E out P) {p : List Ident} {u : Ir.Union} (hx : (p, Node.union u) ∈ itemsOf out)
    {xs : List (SVal .u8)} (hv : Gen.enumValues .u8 (tagVariants u) = some xs) {i : Nat} {v : Ir.UnionVariant}
    (hi : u.variants[i]? = some v) (x : Value) :
    callFn md P (n + 2) (modOf u.ident) (QIdent.simple u.ident) c!"get_type"
      [.union (modOf u.ident) (QIdent.simple u.ident) v.ident x] =
        pure (.variant (modOf u.enumIdent) (QIdent.simple u.enumIdent) v.ident) := by
  obtain ⟨es, us, h1, h2, hp⟩ := S.hasTy (ty := .union u.ident u.enumIdent u.variants) ⟨_, hx, rfl⟩
  have own : (⟨modOf u.ident, .type, QIdent.simple u.ident⟩ : Gen.Item) ∈ P.names :=
    hp.mem_names ⟨.union (QIdent.simple u.ident) us, by simp [unionItems], rfl⟩
  have hsc : Scope.Ok ⟨modOf u.ident, [], some (.item (modOf u.ident) (QIdent.simple u.ident))⟩ := .inl rfl
  have hg := union_getType hp S.nodup (Plain.of_reserved (S.hygienic.plain own)).prim
  have ht : HasTy P (.enum u.enumIdent (tagVariants u) .ubyte) := S.hasTy (union_defined S.translates hx).2.2
  have hes : es = QIdent.relative u.enumIdent (QIdent.namespace u.ident) := by
    unfold pathTokens at h1
    split at h1
    · cases h1
    · cases h1; rfl
  subst hes
  have hl : Leads P ⟨modOf u.ident, [], some (.item (modOf u.ident) (QIdent.simple u.ident))⟩ (QIdent.namespace u.ident)
      u.enumIdent := S.leadsTo hx (by simp [Gen.paths]) hsc rfl
  have hus : us.map (·.1) = u.variants.map (·.ident) := by
    refine map_of_forall₂ ?_ (mapM_forall₂ h2)
    intro a b h
    simp only [unionVariant, Option.bind_eq_bind, Option.bind_eq_some_iff, Option.pure_def, Option.some.injEq] at h
    obtain ⟨_, _, i, hi, rfl⟩ := h
    exact formatIdent_eq hi
  have hvm : v.ident ∈ us.map (·.1) := by rw [hus]; exact List.mem_map_of_mem (List.mem_of_getElem? hi)
  funext s
  rw [callFn_eq hg, invoke_apply (vs := [(c!"self", .union (modOf u.ident) (QIdent.simple u.ident) v.ident x)])
    (by simp [bindParams, getTypeFn, unbindable, selfParam])]
  have arm := chooseArm_variants (P := P) (sc := ⟨modOf u.ident, [], some (.item (modOf u.ident) (QIdent.simple u.ident))⟩)
    (v := .union (modOf u.ident) (QIdent.simple u.ident) v.ident x) (vl := us) (c := v.ident)
    (p := fun c => .tuple (.path [QIdent.simple u.ident]) c)
    (g := fun l => .assoc (.path (QIdent.relative u.enumIdent (QIdent.namespace u.ident))) l.1) (by
      intro l hl
      simp only [matchPat, resolve_own S.hygienic hsc own, if_true, union_item hp S.nodup]
      rw [if_pos (List.mem_map_of_mem hl)])
  obtain ⟨l, hlf⟩ : ∃ l, us.find? (fun l => l.1 == v.ident) = some l := by
    obtain ⟨l, h1, h2⟩ := List.mem_map.mp hvm
    exact Option.isSome_iff_exists.mp (List.find?_isSome.mpr ⟨l, h1, by simp [h2]⟩)
  have hln : l.1 = v.ident := by simpa using List.find?_some hlf
  rw [hlf] at arm
  refine endCall_val ?_
  simp only [getTypeFn, evalBlock]
  rw [eval_match, bind_val (eval_var rfl s), arm, Option.map_some, need_some, bind_val (pure_apply _ _), hln]
  refine eval_variant S.nodup ht hl hv ?_ s
  simp only [tagVariants, List.map_cons, List.map_map, List.mem_cons]
  exact .inr (List.mem_map_of_mem (f := fun v : Ir.UnionVariant => v.ident) (List.mem_of_getElem? hi))

end

end Butte.Rs
