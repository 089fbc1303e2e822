import Verif.Rs.Read
/-
The accessors of the emitted program, continued.
-/
namespace Butte.Rs
open Ir (QIdent)
open Gen (formatIdent formatIdent_eq GField Kind Args kindOf okOr)

/-- Inside a function of the table. -/
def selfScope (t : Ir.Table) : Scope := ⟨tMod t, [c!"B"], some (.item (tMod t) (tName t))⟩

/-- The variables of an accessor. -/
def selfVars (t : Ir.Table) (tb : Butte.Table) : Vars := [(c!"self", tableValue t tb)]

section
variable {gm md : Mode} {P : Program} {t : Ir.Table} {gs : List GField} {n : Nat}

theorem TableAt.eval_slot (A : TableAt gm P t gs) {sc : Scope} (hsc : sc.Ok) (hm : sc.module = tMod t) {vars : Vars} {i : Nat}
    {f : Ir.Field} {g : GField} (hf : t.fields[i]? = some f) (hg : gs[i]? = some g) (s : St) :
    eval md P (n + 1) sc vars (slotExpr (tName t) f) s = .val (.slot g.slot) s := by
  refine eval_assoc (t := .path [tName t]) (d := .item (tMod t) (tName t)) ?_ ?_ s
  · rw [← hm]
    exact resolve_own A.hygienic hsc (by rw [hm]; exact A.own)
  · simp only [assocValue, enumOf, A.item, tableStruct, A.const i f g hf hg, Option.map_some]

theorem TableAt.eval_get (A : TableAt gm P t gs) {tb : Butte.Table} {i : Nat} {f : Ir.Field} {g : GField}
    (hf : t.fields[i]? = some f) (hg : gs[i]? = some g) {w : Ty} {F : FollowTy} (hF : followTy P (selfScope t) w = some F)
    {d : Expr} {dv : Value} (hd : ∀ s, eval md P (n + 2) (selfScope t) (selfVars t tb) d s = .val dv s)
    {dd : Option F.fty.Inner} (hdd : F.default dv = some dd) (s : St) :
    eval md P (n + 3) (selfScope t) (selfVars t tb) (getExpr (tName t) f w d) s =
      result (tb.get md F.fty g.slot dd) (encOption F.value false) s := by
  rw [getExpr, eval_methodAt, bind_val (eval_field (m := tMod t) (k := tName t) (fs := [(c!"table", .table tb)])
    (eval_var (by rfl) s) (v := .table tb) (by rfl))]
  rw [evalList_cons]
  simp only [bind_apply, A.eval_slot (sc := selfScope t) (.inr rfl) rfl hf hg, evalList_cons, hd, evalList_nil, pure_apply]
  simp only [runtimeMethodAt, if_true, hF, need_some, bind_apply, pure_apply, hdd]
  congr 1
  congr 1
  funext x
  cases x <;> rfl

theorem eval_missing (hh : Hygienic P) {sc : Scope} (hsc : sc.Ok) {vars : Vars} (snake : Str) (s : St) :
    eval md P (n + 2) sc vars (missing snake) s = .val (.error (.requiredFieldMissing (String.ofList snake))) s := by
  rw [missing, eval_ctor (t := errorTy) (d := .butte c!"Error") (resolve_butte hh hsc _),
    bind_val (eval_lit (v := .str (String.ofList snake)) rfl s)]
  rfl

theorem evalBlock_nil {ev : Vars → Expr → M Value} {vars : Vars} {e : Expr} : evalBlock ev vars [] e = ev vars e := rfl

theorem TableAt.tyPaths (A : TableAt gm P t gs) {sc : Scope} (hsc : sc.Ok) (hm : sc.module = tMod t) {f : Ir.Field}
    (hf : f ∈ t.fields) : ∀ q ∈ Gen.tyPaths f.ty, Leads P sc (tNs t) q := by
  intro q hq
  refine A.leads sc hsc hm q ?_
  simp only [Gen.paths, List.mem_flatMap]
  exact ⟨f, hf, List.mem_append_left _ hq⟩

/-- The accessor of a field that is no union. -/
theorem TableAt.invoke_plain (A : TableAt gm P t gs) {tb : Butte.Table} {i : Nat} {f : Ir.Field} {g : GField}
    (hf : t.fields[i]? = some f) (hg : gs[i]? = some g) (hu : f.ty.isUnion = false) {fn : Fn}
    (hfn : Rs.accessor (tName t) (tNs t) f = some fn) (s : St) :
    invoke md P (n + 5) (selfScope t) fn [tableValue t tb] s =
      result (Gen.accessor md tb gs g) (encOption (encResult f.ty g.kind) g.required) s := by
  obtain ⟨g', e0, e1, e2, -, hk⟩ := A.fields i f hf
  rw [hg] at e0
  cases e0
  have hmem : f ∈ t.fields := List.mem_of_getElem? hf
  have hty := A.types f hmem
  have hq := A.tyPaths (sc := selfScope t) (.inr rfl) rfl hmem
  simp only [Rs.accessor, Option.bind_eq_bind, Option.bind_eq_some_iff, Option.pure_def, Option.some.injEq] at hfn
  obtain ⟨snake, hs, ret, -, w, hw, dflt, hd, body, hb, rfl⟩ := hfn
  have := formatIdent_eq hs
  subst this
  have hb : body = plainBody (tName t) f (Heck.snake f.ident) w dflt := by
    unfold accessorBody at hb
    split at hb
    · rename_i h
      rw [h] at hu
      cases hu
    · cases hb; rfl
  subst hb
  rw [invoke_apply (vs := selfVars t tb) (by rfl), evalBlock_nil]
  obtain ⟨F, hF, hFd⟩ := fetch_plain hk hu
  have hFt := followTy_token (sc := selfScope t) A.nodup A.hygienic (.inr rfl) hty hq hw hF
  obtain ⟨dv, hdv, -⟩ := eval_getDefault (md := md) (n := 0) (vars := selfVars t tb) A.nodup hty hq hk hw hu hd
  obtain ⟨dd, hdd, hres⟩ := hFd dv hdv
  have hget : ∀ k, eval md P (k + 3) (selfScope t) (selfVars t tb) (getExpr (tName t) f w dflt) s =
      result (g.kind.fetch md tb g.slot (Gen.tagOf md tb gs g.name)) (encOption (encResult f.ty g.kind) false) s := by
    intro k
    rw [← hres]
    refine A.eval_get hf hg hFt (dv := dv) (fun s => ?_) hdd s
    obtain ⟨dv', hdv', hev⟩ := eval_getDefault (md := md) (n := k) (vars := selfVars t tb) A.nodup hty hq hk hw hu hd
    rw [hdv] at hdv'
    cases hdv'
    exact hev s
  simp only [plainBody]
  unfold Gen.accessor
  generalize hR : g.kind.fetch md tb g.slot (Gen.tagOf md tb gs g.name) = R at hget
  rw [e2]
  cases hreq : f.required with
  | false =>
    simp only [Bool.false_eq_true, if_false]
    unfold endCall
    rw [hget (n + 2)]
    cases R with
    | ok x =>
      cases x with
      | none => rfl
      | some x => cases he : encResult f.ty g.kind x <;> simp [result, okOr, encOption, he, need, bind_apply, stuck, pure_apply]
    | err e => rfl
    | panic => rfl
  | true =>
    simp only [if_true]
    unfold endCall
    rw [eval_method, bind_apply, eval_try, bind_apply, hget n]
    cases R with
    | ok x =>
      cases x with
      | none =>
        simp only [result, encOption, if_false, need_some, bind_apply, pure_apply, evalList_cons,
          eval_missing A.hygienic (sc := selfScope t) (.inr rfl), evalList_nil, runtimeMethod, if_true, okOr,
          Bool.false_eq_true, Res.ok_bind, e1]
      | some x =>
        cases he : encResult f.ty g.kind x with
        | none => simp [result, okOr, encOption, he, need, bind_apply, stuck, pure_apply]
        | some v =>
          simp only [result, encOption, if_false, need_some, bind_apply, pure_apply, evalList_cons, he, Option.map_some,
            eval_missing A.hygienic (sc := selfScope t) (.inr rfl), evalList_nil, runtimeMethod, if_true, okOr,
            Bool.false_eq_true, Res.ok_bind]
    | err e => rfl
    | panic => rfl

end

end Butte.Rs
