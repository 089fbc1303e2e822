import Verif.Rs.TypedCreate
/-
The functions of a table that are the same for every table, and `create`, are well-typed.
-/
namespace Butte.Rs
open Ir (QIdent Node Ident itemsOf Translates)
open Gen (compileTable formatIdent formatIdent_eq GField Kind kindOf)

section
variable {gm md : Mode} {P : Program} {t : Ir.Table} {gs : List GField} {ret : RTy} {Γ : Types}

/-- The type of the table, over some bytes. -/
abbrev tableRTy (t : Ir.Table) (a : RTy) : RTy := .structApp (tMod t) (tName t) a

theorem ctx_ok (t : Ir.Table) (a : RTy) (assoc : List (Str × RTy)) : (tableCtx t [] a assoc).sc.Ok := .inl rfl

theorem ctxB_ok (t : Ir.Table) (a : RTy) (assoc : List (Str × RTy)) : (tableCtx t [c!"B"] a assoc).sc.Ok := .inr rfl

/-! ### `create` -/

theorem fnSig_of {m : List Str} {n f : Str} {a : Option RTy} {g : Fn} {s : RTy} {ts : List RTy} {r : RTy}
    (hf : fnOf P m n f = some ([], g)) (hs : selfOf P m n [] = some s)
    (hsig : sigOf P ⟨⟨m, [], some (.item m n)⟩, some s, []⟩ g = some (ts, r)) : fnSig P m n a f = some (ts, r) := by
  simp only [fnSig, hf, hs, hsig, Option.bind_eq_bind, Option.bind_some]
  cases a <;> rfl

theorem TableAt.create_sig (A : TableAt gm P t gs) :
    sigOf P (tableCtx t [] .bytes []) (createFn (tName t) t.fields) =
      some ([.butte c!"FlatBufferBuilder", argsRTy t], finishedRTy t) := by
  have harg : tyOf P (tableCtx t [] .bytes []) (.ref (.path [tName t ++ c!"Args"])) = some (argsRTy t) := by
    rw [tyOf, if_neg]
    · exact A.args_ty (ctx_ok ..) rfl
    · rw [resolve_own A.hygienic (ctx_ok ..) A.ownArgs]
      simp
  simp only [sigOf, createFn, List.mapM_cons, List.mapM_nil, fbb_ty A.hygienic (ctx_ok t .bytes []), harg,
    A.finished_ty (ctx_ok t .bytes []) rfl]
  rfl

theorem TableAt.add_fnSig (A : TableAt gm P t gs) {f : Ir.Field} (hf : f ∈ t.fields) :
    isMethod P (tMod t) (tName t ++ c!"Builder") (addName f) = true ∧
      fnSig P (tMod t) (tName t ++ c!"Builder") none (addName f) = some ([builderRTy t, argRTy f.ty], .unit) := by
  obtain ⟨g, hg, hfn⟩ := A.add f hf
  refine ⟨?_, fnSig_of hfn A.self_builder (A.add_sig hf hg)⟩
  simp only [addMethod, Option.bind_eq_bind, Option.bind_eq_some_iff, Option.pure_def, Option.some.injEq] at hg
  obtain ⟨w, hw, body, hb, rfl⟩ := hg
  simp [isMethod, hfn, selfParam]

theorem TableAt.create_ok (A : TableAt gm P t gs) (hA : ArgsAt P t) :
    FnOk P (tableCtx t [] .bytes []) (createFn (tName t) t.fields) := by
  refine ⟨_, _, A.create_sig, by simp [createFn], by simp [createFn, unbindable], ?_⟩
  refine ⟨builderRTy t, .call (A.builder_ty (ctx_ok ..) rfl) rfl ?_ (fnSig_of A.new A.self_builder A.new_sig) rfl
    (all1 (.var rfl)), ?_⟩
  · simp [variantsOf]
  · refine block_exprs ?_ ?_
    · intro f hf
      obtain ⟨hm, hs⟩ := A.add_fnSig hf
      have harg : ∀ {Γ : Types}, (Γ.find? fun y => y.1 == c!"args").map (·.2) = some (argsRTy t) →
          HasType P (tableCtx t [] .bytes []) (finishedRTy t) Γ (.field (.var c!"args") f.ident) (fieldArgTy f) :=
        fun h => .field (.var h) (by
          simp only [fieldTy, A.fields_args hA, Option.bind_eq_bind, Option.bind_some]
          exact find_field A.ids hf)
      unfold addCall
      unfold fieldArgTy at harg
      cases hc : f.required || f.ty.isScalar with
      | true =>
        simp only [hc, if_true] at harg ⊢
        exact .inl ⟨_, _, rfl, .method (s := builderRTy t) (.var rfl) rfl hm hs rfl (all1 (harg rfl))⟩
      | false =>
        simp only [hc, Bool.false_eq_true, if_false] at harg ⊢
        exact .inr ⟨_, _, _, _, _, rfl, harg rfl, .method (s := builderRTy t) (.var rfl) rfl hm hs rfl (all1 (.var rfl))⟩
    · refine .method (s := builderRTy t) (.var rfl) rfl ?_ (fnSig_of A.finish A.self_builder A.finish_sig) rfl all0
      simp [isMethod, A.finish, finishFn]

/-! ### From bytes to tables -/

theorem TableAt.typed_self (A : TableAt gm P t gs) {k : TCtx} {a : RTy} (hk : k.self = some (tableRTy t a)) {e : Expr}
    (he : HasType P k ret Γ e (.butteApp c!"Table" a)) :
    HasType P k ret Γ (.struct selfTy [(c!"table", e)]) (tableRTy t a) := by
  refine .struct (self_ty hk) (A.fields_table a) rfl ?_
  intro p hp
  simp only [List.zip_cons_cons, List.zip_nil_left, List.mem_cons, List.not_mem_nil, or_false] at hp
  subst hp
  exact he

theorem def_table (hh : Hygienic P) {k : TCtx} (hsc : k.sc.Ok) :
    defOf P k.sc (.path [c!"butte", c!"Table"]) = some (.butte c!"Table") := by
  rw [defOf]
  exact resolve_butte hh hsc _

theorem TableAt.getRoot_ok (A : TableAt gm P t gs) : FnOk P (accCtx t) getRootFn := by
  have hr := resultTy_ty (k := accCtx t) (w := selfTy) A.hygienic (.inr rfl) (self_ty rfl)
  refine ⟨[.param c!"B"], .result (tableRTy t (.param c!"B")) .error, ?_, by simp [getRootFn], by simp [getRootFn, unbindable], ?_⟩
  · simp only [sigOf, getRootFn, List.mapM_cons, List.mapM_nil, tyOf, param_ty (P := P) (k := accCtx t) rfl]
    rw [show tyOf P (accCtx t) (resultTy selfTy) = _ from hr]
    rfl
  · refine ⟨.butteApp c!"Table" (.param c!"B"), .try (.runtime (def_table A.hygienic (.inr rfl)) (.tableRoot _) rfl
      (all1 (.var rfl))) rfl, ?_⟩
    exact .ok (A.typed_self rfl (.var rfl))

/-- The body of `follow` and `follow_buf`. -/
theorem TableAt.newTable (A : TableAt gm P t gs) {k : TCtx} {a : RTy} (hsc : k.sc.Ok) (hk : k.self = some (tableRTy t a)) :
    BlockOk P k (.result (tableRTy t a) .error) [(c!"buf", a), (c!"loc", .usize)] newTableBody.1 newTableBody.2
      (.result (tableRTy t a) .error) := by
  refine ⟨.butteApp c!"Table" a, .runtime (def_table A.hygienic hsc) (.tableNew _) rfl (all2 (.var rfl) (.var rfl)), ?_⟩
  exact .ok (A.typed_self hk (.var rfl))

theorem TableAt.follow_sig (A : TableAt gm P t gs) : sigOf P (tableCtx t [] .bytes [(c!"Inner", tableRTy t .bytes)]) followFn =
    some ([.bytes, .usize], .result (tableRTy t .bytes) .error) := by
  have hsc : (tableCtx t [] .bytes [(c!"Inner", tableRTy t .bytes)]).sc.Ok := .inl rfl
  have hi : tyOf P (tableCtx t [] .bytes [(c!"Inner", tableRTy t .bytes)]) (.path [c!"Self", c!"Inner"]) =
    some (tableRTy t .bytes) := selfInner_ty rfl (by simp [variantsOf]) rfl
  simp only [sigOf, followFn, List.mapM_cons, List.mapM_nil, bytesTy_ty A.hygienic hsc, resultTy_ty A.hygienic hsc hi]
  rw [show tyOf P (tableCtx t [] .bytes [(c!"Inner", tableRTy t .bytes)]) (.path [c!"usize"]) = _ from usize_ty A.hygienic hsc]
  rfl

theorem TableAt.follow_ok (A : TableAt gm P t gs) :
    FnOk P (tableCtx t [] .bytes [(c!"Inner", tableRTy t .bytes)]) followFn :=
  ⟨_, _, A.follow_sig, by simp [followFn], by simp [followFn, bytesTy, unbindable], A.newTable (.inl rfl) rfl⟩

/-- The context of `follow_buf`. -/
abbrev followBufCtx (t : Ir.Table) : TCtx :=
  tableCtx t [c!"B"] (.param c!"B") [(c!"Buf", .param c!"B"), (c!"Inner", tableRTy t (.param c!"B"))]

theorem TableAt.followBuf_sig (A : TableAt gm P t gs) : sigOf P (followBufCtx t) followBufFn =
    some ([.param c!"B", .usize], .result (tableRTy t (.param c!"B")) .error) := by
  have hsc : (followBufCtx t).sc.Ok := .inr rfl
  have hb : tyOf P (followBufCtx t) (.path [c!"Self", c!"Buf"]) = some (.param c!"B") :=
    selfInner_ty rfl (by simp [variantsOf]) rfl
  have hi : tyOf P (followBufCtx t) (.path [c!"Self", c!"Inner"]) = some (tableRTy t (.param c!"B")) :=
    selfInner_ty rfl (by simp [variantsOf]) rfl
  simp only [sigOf, followBufFn, List.mapM_cons, List.mapM_nil, hb, resultTy_ty A.hygienic hsc hi]
  rw [show tyOf P (followBufCtx t) (.path [c!"usize"]) = _ from usize_ty A.hygienic hsc]
  rfl

theorem TableAt.followBuf_ok (A : TableAt gm P t gs) : FnOk P (followBufCtx t) followBufFn :=
  ⟨_, _, A.followBuf_sig, by simp [followBufFn], by simp [followBufFn, unbindable], A.newTable (.inr rfl) rfl⟩

theorem TableAt.from_sig (A : TableAt gm P t gs) : sigOf P (accCtx t) fromTableFn =
    some ([.butteApp c!"Table" (.param c!"B")], tableRTy t (.param c!"B")) := by
  simp only [sigOf, fromTableFn, List.mapM_cons, List.mapM_nil, tableB_ty (k := accCtx t) A.hygienic rfl]
  rw [show tyOf P (accCtx t) selfTy = _ from self_ty rfl]
  rfl

theorem TableAt.from_ok (A : TableAt gm P t gs) : FnOk P (accCtx t) fromTableFn :=
  ⟨_, _, A.from_sig, by simp [fromTableFn], by simp [fromTableFn, unbindable], A.typed_self rfl (.var rfl)⟩

/-! ### The `impl`s -/

theorem trait_impl {m gs : List Str} {tr self : Ty} {cs : List (Str × Fin 65536)} {s : RTy} {d : Def}
    {assoc : List (Str × RTy)} {ts : List RTy} {r : RTy} {f : Fn} (hs : tyOf P ⟨⟨m, gs, none⟩, none, []⟩ self = some s)
    (hm : ∀ g ∈ gs, RTy.mentions g s = true) (hd : selfDef P ⟨m, gs, none⟩ self = some d)
    (ht : traitSpec P ⟨m, gs, none⟩ s tr = some (assoc, f.name, ts, r))
    (hsig : sigOf P ⟨⟨m, gs, some d⟩, some s, assoc⟩ f = some (ts, r)) (hf : FnOk P ⟨⟨m, gs, some d⟩, some s, assoc⟩ f) :
    ItemOk P m (.impl gs (some tr) self cs [f]) := by
  refine ⟨s, hs, hm, assoc, f.name, ts, r, f, ht, rfl, rfl, ?_, ?_⟩
  · rw [hd]
    exact hsig
  · rw [hd]
    exact hf

theorem TableAt.self_app (A : TableAt gm P t gs) (g : List Str) (hg : (⟨tMod t, g, none⟩ : Scope).Ok) (w : Ty) :
    selfDef P ⟨tMod t, g, none⟩ (.app [tName t] w) = some (.item (tMod t) (tName t)) :=
  resolve_own A.hygienic hg A.own

theorem TableAt.implB (A : TableAt gm P t gs) : tyOf P ⟨⟨tMod t, [c!"B"], none⟩, none, []⟩ (.app [tName t] (.path [c!"B"])) =
    some (tableRTy t (.param c!"B")) :=
  A.app_ty (k := ⟨⟨tMod t, [c!"B"], none⟩, none, []⟩) (.inr rfl) rfl (param_ty rfl)

theorem TableAt.implBytes (A : TableAt gm P t gs) : tyOf P ⟨⟨tMod t, [], none⟩, none, []⟩ (.app [tName t] bytesTy) =
    some (tableRTy t .bytes) :=
  A.app_ty (k := ⟨⟨tMod t, [], none⟩, none, []⟩) (.inl rfl) rfl (bytesTy_ty A.hygienic (.inl rfl))

theorem TableAt.from_impl (A : TableAt gm P t gs) : ItemOk P (tMod t) (tableFrom (tName t)) := by
  refine trait_impl A.implB (by simp [RTy.mentions]) (A.self_app _ (.inr rfl) _) ?_ A.from_sig A.from_ok
  simp only [traitSpec, resolve_from (sc := ⟨tMod t, [c!"B"], none⟩) A.hygienic (.inr rfl),
    tableB_ty (k := ⟨⟨tMod t, [c!"B"], none⟩, none, []⟩) A.hygienic rfl]
  rfl

theorem TableAt.into_impl (A : TableAt gm P t gs) : ItemOk P (tMod t) (tableInto (tName t)) := by
  have hB := tableB_ty (P := P) (k := ⟨⟨tMod t, [c!"B"], none⟩, none, []⟩) A.hygienic rfl
  have hd : selfDef P ⟨tMod t, [c!"B"], none⟩ tableB = some (.butte c!"Table") :=
    resolve_butte (sc := ⟨tMod t, [c!"B"], none⟩) A.hygienic (.inr rfl) c!"Table"
  have hsig : sigOf P ⟨⟨tMod t, [c!"B"], some (.butte c!"Table")⟩, some (.butteApp c!"Table" (.param c!"B")), []⟩
      ⟨c!"from", [(c!"s", .app [tName t] (.path [c!"B"]))], selfTy, [], .field (.var c!"s") c!"table"⟩ =
        some ([tableRTy t (.param c!"B")], .butteApp c!"Table" (.param c!"B")) := by
    have h1 := A.app_ty (k := ⟨⟨tMod t, [c!"B"], some (.butte c!"Table")⟩, some (.butteApp c!"Table" (.param c!"B")), []⟩)
      (w := .path [c!"B"]) (.inr rfl) rfl (param_ty rfl)
    simp only [sigOf, List.mapM_cons, List.mapM_nil, h1]
    rw [self_ty rfl]
    rfl
  refine trait_impl hB (by simp [RTy.mentions]) hd ?_ hsig ⟨_, _, hsig, by simp, by simp [unbindable], ?_⟩
  · simp only [traitSpec, resolve_from (sc := ⟨tMod t, [c!"B"], none⟩) A.hygienic (.inr rfl), A.implB]
    rfl
  · exact .field (.var rfl) (by simp only [fieldTy, A.fields_table]; rfl)

theorem TableAt.create_impl (A : TableAt gm P t gs) (hA : ArgsAt P t) (consts : List (Str × Fin 65536)) :
    ItemOk P (tMod t) (tableCreate (tName t) consts t.fields) := by
  refine ⟨_, A.implBytes, by simp, ?_⟩
  intro f hf
  rw [List.mem_singleton] at hf
  subst hf
  rw [A.self_app _ (.inl rfl)]
  exact A.create_ok hA

theorem TableAt.access_impl (A : TableAt gm P t gs) (hU : MembersLead P t) {accs : List Fn}
    (ha : t.fields.mapM (Rs.accessor (tName t) (tNs t)) = some accs) : ItemOk P (tMod t) (tableAccess (tName t) accs) := by
  refine ⟨_, A.implB, by simp [RTy.mentions], ?_⟩
  intro g hg
  rw [A.self_app _ (.inr rfl)]
  rcases List.mem_append.mp hg with hg | hg
  · obtain ⟨f, hf, hfa⟩ := forall₂_right (mapM_forall₂ ha) g hg
    exact A.acc_ok hU hf hfa
  · rw [List.mem_singleton] at hg
    subst hg
    exact A.getRoot_ok

theorem TableAt.follow_impl (A : TableAt gm P t gs) : ItemOk P (tMod t) (tableFollow (tName t)) := by
  refine trait_impl A.implBytes (by simp) (A.self_app _ (.inl rfl) _) ?_ A.follow_sig A.follow_ok
  simp only [traitSpec, resolve_butte (sc := ⟨tMod t, [], none⟩) A.hygienic (.inl rfl)]
  rfl

theorem TableAt.followBuf_impl (A : TableAt gm P t gs) : ItemOk P (tMod t) (tableFollowBuf (tName t)) := by
  refine trait_impl A.implB (by simp [RTy.mentions]) (A.self_app _ (.inr rfl) _) ?_ A.followBuf_sig A.followBuf_ok
  simp only [traitSpec, resolve_butte (sc := ⟨tMod t, [c!"B"], none⟩) A.hygienic (.inr rfl)]
  rfl

theorem TableAt.default_impl (A : TableAt gm P t gs) (hA : ArgsAt P t) (hc : canDefault t.fields = true)
    (hd : ∀ f ∈ t.fields, ∀ q vs b, f.ty = .enum q vs b → f.default = none → c!"default" ∉ vs.map (·.ident))
    {ds : List (Str × Expr)} (hds : t.fields.mapM (argDefault (tNs t)) = some ds) :
    ItemOk P (tMod t) (argsDefault (tName t) ds) := by
  refine trait_impl (A.args_ty (k := ⟨⟨tMod t, [], none⟩, none, []⟩) (.inl rfl) rfl) (by simp)
    (resolve_own A.hygienic (.inl rfl) A.ownArgs) ?_ TableAt.default_sig (A.default_ok hA hc hd hds)
  simp only [traitSpec, resolve_default (sc := ⟨tMod t, [], none⟩) A.hygienic (.inl rfl)]
  rfl

theorem TableAt.builder_impl (A : TableAt gm P t gs) {adds : List Fn}
    (ha : t.fields.mapM (addMethod (tName t) (tNs t)) = some adds) :
    ItemOk P (tMod t) (builderImpl (tName t) adds t.fields) := by
  have hs : selfDef P ⟨tMod t, [], none⟩ (.path [tName t ++ c!"Builder"]) = some (.item (tMod t) (tName t ++ c!"Builder")) :=
    resolve_own A.hygienic (.inl rfl) A.ownBuilder
  refine ⟨_, A.builder_ty (k := ⟨⟨tMod t, [], none⟩, none, []⟩) (.inl rfl) rfl, by simp, ?_⟩
  intro g hg
  rw [hs]
  rcases List.mem_append.mp hg with hg | hg
  · obtain ⟨f, hf, hfa⟩ := forall₂_right (mapM_forall₂ ha) g hg
    exact A.add_ok hf hfa
  · simp only [List.mem_cons, List.not_mem_nil, or_false] at hg
    rcases hg with rfl | rfl
    · exact A.new_ok
    · exact A.finish_ok

/-! ### Names in the `impl`s -/

theorem joinWords_mem {ws : List Str} {c : Char} (h : c ∈ Heck.joinWords ws) : c = '_' ∨ ∃ w ∈ ws, c ∈ w := by
  induction ws with
  | nil => simp [Heck.joinWords] at h
  | cons w ws ih =>
    cases ws with
    | nil => exact .inr ⟨w, by simp, by simpa [Heck.joinWords] using h⟩
    | cons w' ws =>
      simp only [Heck.joinWords, List.mem_append, List.mem_cons] at h
      rcases h with h | h | h
      · exact .inr ⟨w, by simp, h⟩
      · exact .inl h
      · rcases ih h with h | ⟨v, hv, hc⟩
        · exact .inl h
        · exact .inr ⟨v, by simp [List.mem_cons.mp hv], hc⟩

theorem snake_lower {s : Str} {c : Char} (h : c ∈ Heck.snake s) : c.isUpper = false := by
  obtain ⟨ws, hs, hw⟩ := Heck.snake_words s
  rw [hs] at h
  rcases joinWords_mem h with rfl | ⟨w, hm, hc⟩
  · decide
  · exact ((hw w hm).2 c hc).2

theorem offsetId_ne (f : Ir.Field) (s : Str) : offsetId f ≠ Heck.snake s := by
  intro h
  have : 'V' ∈ Heck.snake s := by rw [← h]; simp [offsetId]
  have := snake_lower this
  revert this
  decide

theorem snake_create : Heck.snake c!"create" = c!"create" ∧ Heck.snake c!"get_root" = c!"get_root" := by decide

theorem args_impls_none {m : List Str} {n : Str} {args : List (Str × Ty)} {adds : List Fn}
    {consts : List (Str × Fin 65536)} {accs : List Fn} {fields : List Ir.Field}
    (h : Placed P m (tableItems n args [] adds consts accs fields)) (hn : P.names.Nodup)
    (hp : ∀ t, n ++ c!"Args" ≠ primName t) : implsOf P m (n ++ c!"Args") = [] := by
  rw [h.impls hn ⟨.struct (n ++ c!"Args") [] args, by simp [tableItems], rfl⟩ hp]
  simp [implsOf, tableItems, tableStruct, tableFrom, tableInto, tableCreate, tableAccess, tableFollow, tableFollowBuf,
    builderStruct, builderImpl, headName, tableB]

theorem Setting.table_items_ok {E : List Ast.Element} {out : List Node} (S : Setting gm E out P) {p : List Ident}
    (hx : (p, Node.table t) ∈ itemsOf out) (hc : compileTable gm t = some gs) (hU : MembersLead P t)
    (hd : canDefault t.fields = true → ∀ f ∈ t.fields, ∀ q vs b, f.ty = .enum q vs b → f.default = none →
      c!"default" ∉ vs.map (·.ident)) {items : List Item} (hi : emitTable gm t = some items) {x : Item} (hm : x ∈ items) :
    ItemOk P (tMod t) x := by
  have A := S.tableAt hx hc
  obtain ⟨items', hi', hp⟩ := emit_table S.emitted hx
  rw [hi] at hi'
  cases hi'
  obtain ⟨args, dflt, adds, consts, accs, -, -, h1, h2, h3, h4, h5, rfl⟩ := emitTable_eq hi
  have e : p.map Heck.snake = modOf t.ident := S.path hx
  rw [e] at hp
  have pl : Plain (tName t) := .of_reserved (S.hygienic.plain A.own)
  have plA := (Plain.of_reserved (S.hygienic.plain A.ownArgs)).prim
  have plB := (Plain.of_reserved (S.hygienic.plain A.ownBuilder)).prim
  have hdf : ∃ ds, (dflt = [] ∨ dflt = [argsDefault (tName t) ds]) := by
    rcases h2 with ⟨_, h⟩ | ⟨_, ds, _, h⟩
    · exact ⟨[], .inl h⟩
    · exact ⟨ds, .inr h⟩
  obtain ⟨ds, hdf⟩ := hdf
  have hA : ArgsAt P t := ⟨args, h1, args_item hp S.nodup hdf⟩
  have hnames : accs.map (·.name) = t.fields.map fun f => Heck.snake f.ident :=
    map_of_forall₂ (fun f g h => accessor_name h) (mapM_forall₂ h5)
  have hadds : adds.map (·.name) = t.fields.map addName :=
    map_of_forall₂ (fun f g h => addMethod_name h) (mapM_forall₂ h3)
  have hstruct : ItemOk P (tMod t) (tableStruct (tName t)) := by
    refine ⟨by simp, ?_, [.butteApp c!"Table" (.param c!"B")], ?_, by simp [RTy.mentions]⟩
    · rw [ImplsOk, table_impls hp S.nodup hdf pl]
      constructor
      · simp only [List.flatMap_cons, List.flatMap_nil, reduceCtorEq, if_false, if_true, List.nil_append, List.append_nil,
          consts_names h4, List.map_cons, List.map_nil, List.map_append, hnames, createFn, getRootFn]
        have hcs : (t.fields.map offsetId).Nodup := by
          have : t.fields.map offsetId = (t.fields.map (fun f => Heck.shouty f.ident)).map (c!"VT_" ++ ·) := by
            simp [offsetId]
          rw [this]
          exact A.shouty.map fun a b hab => List.append_cancel_left hab
        have hac := A.accs
        rw [List.append_assoc]
        refine List.nodup_append'.mpr ⟨hcs, ?_, ?_⟩
        · refine List.Perm.nodup (l := t.fields.map (fun f => Heck.snake f.ident) ++ [c!"create", c!"get_root"]) ?_ hac
          exact List.perm_middle
        · intro n hn hn'
          obtain ⟨f, -, rfl⟩ := List.mem_map.mp hn
          simp only [List.mem_append, List.mem_cons, List.mem_map, List.not_mem_nil, or_false] at hn'
          rcases hn' with h | ⟨g, -, h⟩ | h
          · exact offsetId_ne f c!"create" (h.trans snake_create.1.symm)
          · exact offsetId_ne f _ h.symm
          · exact offsetId_ne f c!"get_root" (h.trans snake_create.2.symm)
      · simp [followPath]
    · simp only [List.mapM_cons, List.mapM_nil, tableB_ty (k := declCtx (tMod t) [c!"B"]) A.hygienic rfl]
      rfl
  have hargs : ItemOk P (tMod t) (.struct (tName t ++ c!"Args") [] args) := by
    refine ⟨?_, ?_, _, (A.args_types (k := declCtx (tMod t) []) (.inl rfl) rfl h1).2, by simp⟩
    · rw [map_of_forall₂ (fun a b => argField_name (f := a) (a := b)) (mapM_forall₂ h1)]
      exact A.ids
    · rcases hdf with rfl | rfl
      · rw [ImplsOk, args_impls_none hp S.nodup plA]
        simp
      · rw [ImplsOk, args_impls hp S.nodup plA]
        simp
  have hbuilder : ItemOk P (tMod t) (builderStruct (tName t)) := by
    refine ⟨by simp, ?_, [.butte c!"FlatBufferBuilder", .butteApp c!"WIPOffset" (.butte c!"TableUnfinishedWIPOffset")], ?_, by simp⟩
    · rw [ImplsOk, builder_impls hp S.nodup hdf plB]
      constructor
      · simp only [List.flatMap_cons, List.flatMap_nil, if_true, List.append_nil, List.map_append, hadds, List.map_cons,
          List.map_nil, List.nil_append, newFn, finishFn]
        refine List.nodup_append'.mpr ⟨?_, by decide, ?_⟩
        · have : t.fields.map addName = (t.fields.map (·.ident)).map (c!"add_" ++ ·) := by simp [addName]
          rw [this]
          exact A.ids.map fun a b hab => List.append_cancel_left hab
        · intro n hn hn'
          obtain ⟨f, -, rfl⟩ := List.mem_map.mp hn
          simp [addName] at hn'
      · simp
    · have h1 : (declCtx (tMod t) []).sc.Ok := .inl rfl
      simp only [List.mapM_cons, List.mapM_nil, fbb_ty (k := declCtx (tMod t) []) A.hygienic h1,
        wipTy_ty A.hygienic h1 (w := .path [c!"butte", c!"TableUnfinishedWIPOffset"]) (butteTy A.hygienic h1 (by decide))]
      rfl
  simp only [tableItems, List.mem_append, List.mem_cons, List.not_mem_nil, or_false] at hm
  rcases hm with ((rfl | rfl | rfl | rfl | rfl | rfl | rfl | rfl) | hm) | rfl | rfl
  · exact hstruct
  · exact A.from_impl
  · exact A.into_impl
  · exact A.create_impl hA _
  · exact A.access_impl hU h5
  · exact A.follow_impl
  · exact A.followBuf_impl
  · exact hargs
  · rcases h2 with ⟨_, rfl⟩ | ⟨hc, ds, hds, rfl⟩
    · cases hm
    · rw [List.mem_singleton] at hm
      subst hm
      exact A.default_impl hA hc (hd hc) hds
  · exact hbuilder
  · exact A.builder_impl h3

end

end Butte.Rs
